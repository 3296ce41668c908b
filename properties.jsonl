{"id": "C01", "title": "Row/column selections accumulate as a set union", "statement": "After da_data_select_rows / da_data_select_columns / da_data_select_slice add the range [lb,ub] to a named selection, the indices in the selection are exactly those that were in it before together with lb..ub; an empty range (ub<lb) is refused with invalid_input and changes nothing.", "quantifier": "for every selection reachable by any history of select/remove calls and every pair lb, ub of integers", "why_tests_cant": "The stored form is a set of merged intervals; the number of overlap/adjacency configurations with existing intervals is unbounded and a test only samples a few of them.", "anchors": ["source/core/data_management/interval_set.cpp: interval_set::insert", "source/core/data_management/interval_set.hpp", "source/core/data_management/data_store.hpp: data_store::select_rows, select_columns, select_slice"]}
{"id": "C02", "title": "Removing a range from a selection is set difference", "statement": "When da_data_select_remove_rows / da_data_select_remove_columns reports success for the range [lb,ub], the selection holds exactly the indices it held before except lb..ub.", "quantifier": "for every selection reachable by any history of select/remove calls and every pair lb<=ub", "why_tests_cant": "Correctness depends on how the removed range lies relative to an unbounded number of stored intervals; existing tests only remove ranges that start or end inside a stored interval.", "anchors": ["source/core/data_management/interval_set.cpp: interval_set::erase", "source/core/data_management/data_store.hpp: data_store::remove_rows_from_selection, remove_columns_from_selection"]}
{"id": "C03", "title": "Selections stay canonical", "statement": "At all times the intervals that make up a selection are non-empty, sorted, pairwise disjoint and never touching, so two selections holding the same indices have the same stored form and extraction visits every selected index once.", "quantifier": "for every history of insertions and removals, of any length", "why_tests_cant": "It is an invariant over all histories, not a property of one call.", "anchors": ["source/core/data_management/interval_set.cpp: interval_set::insert, interval_set::erase, interval_set::find"]}
{"id": "C04", "title": "Column lookup finds the block holding the column", "statement": "Looking up a column index in a store's column map returns the block whose range contains the index, and reports 'not found' exactly when no range contains it; inserting a range never makes an index belong to two blocks.", "quantifier": "for every map built by any sequence of insertions and erasures and every key", "why_tests_cant": "The lookup uses ordered-set bounds; the wrong neighbour is only returned for particular layouts, and stepping before the first element is undefined behaviour a test may not notice.", "anchors": ["source/core/data_management/interval_map.hpp: interval_map::insert, interval_map::find, interval_map::erase"]}
{"id": "C05", "title": "A data store behaves as the matrix assembled by the concatenations", "statement": "After any history of da_data_load_col_* / da_data_load_row_* calls, reading element (i,j) of a complete store returns exactly the value that was supplied for that position, regardless of how the data was cut into blocks and of the storage order of each piece; out-of-range positions are refused.", "quantifier": "for every history of concatenations of blocks of any size, order and type, and every (i,j)", "why_tests_cant": "The store is a linked structure of blocks and the number of block layouts is unbounded.", "anchors": ["source/core/data_management/data_store.hpp: data_store::concatenate_columns, concatenate_rows, horizontal_concat, get_element, set_element"]}
{"id": "C06", "title": "set_element changes one cell and nothing else", "statement": "After a successful da_data_set_element_* at (i,j) the cell (i,j) reads back as the new value, every other cell reads back as before; on failure nothing changes.", "quantifier": "for every store reachable by concatenations, every position and every value", "why_tests_cant": "A frame condition over all other cells of all layouts.", "anchors": ["source/core/data_management/data_store.hpp: data_store::set_element, get_element", "source/core/data_management/data_store_public.cpp"]}
{"id": "C07", "title": "Extracting a slice or column copies exactly the requested cells", "statement": "da_data_extract_column_* and slice extraction write, for every row r and column c of the requested range, the value of store cell (r,c) at the position the requested order and leading dimension prescribe, and write nowhere else in the output.", "quantifier": "for every store layout, every valid range, both storage orders and every legal leading dimension", "why_tests_cant": "Index arithmetic across blocks, orders and leading dimensions: an error shows only for particular combinations.", "anchors": ["source/core/data_management/data_store.hpp: data_store::extract_column, extract_slice, block_dense::copy_slice_dense"]}
{"id": "C08", "title": "Extracting a selection returns the selected sub-matrix", "statement": "da_data_extract_selection_* returns the sub-matrix of the selected rows and columns in increasing order, in the requested storage order with the given leading dimension.", "quantifier": "for every store, every selection (any number of row and column intervals), both orders and every legal leading dimension", "why_tests_cant": "Depends on the product of an unbounded number of row and column intervals.", "anchors": ["source/core/data_management/data_store.hpp: data_store::extract_selection"]}
{"id": "C09", "title": "An option value read back is the one last accepted", "statement": "After da_options_set_* returns success, da_options_get_* for the same option returns that value; a refused set (unknown name, wrong type, out of bounds, locked) leaves every option of the handle as it was, and an accepted set leaves every other option as it was.", "quantifier": "for every registry content and every history of set calls", "why_tests_cant": "A frame property over all other options and all histories.", "anchors": ["source/core/utilities/options.hpp: OptionRegistry::set, OptionRegistry::get, OptionNumeric::set, OptionString::set"]}
{"id": "C10", "title": "Accepted numeric options respect their bounds", "statement": "No history of da_options_set calls can leave a numeric option with a value outside the bounds it was registered with.", "quantifier": "for every option definition, every bound kind (open/closed/infinite) and every supplied value, including NaN for real options", "why_tests_cant": "The value domain is all integers or all floating-point values including NaN; tests use a handful of ordinary numbers.", "anchors": ["source/core/utilities/options.hpp: OptionNumeric::set, OptionNumeric::validate"]}
{"id": "C11", "title": "Option names are matched up to case and spacing", "statement": "Two option names that differ only in letter case and in leading, trailing or repeated blanks address the same option, and normalising a name twice is the same as normalising it once.", "quantifier": "for every string", "why_tests_cant": "Quantifies over all strings.", "anchors": ["source/core/utilities/options.hpp: OptionUtility::prep_str, OptionRegistry::set, OptionRegistry::get"]}
{"id": "C12", "title": "A saved option registry loads back identically", "statement": "Writing a handle's options with da_handle_save and reading them into a freshly created handle of the same type restores every option value.", "quantifier": "for every registry content", "why_tests_cant": "All registry contents, any number of options of each type.", "anchors": ["source/core/utilities/options.hpp: OptionRegistry::save_registry, load_registry", "source/core/utilities/model_persistence.hpp"]}
{"id": "C13", "title": "Model files round-trip", "statement": "Every value written by da_handle_save (booleans, integers, reals, strings, vectors of them) is read back unchanged by da_handle_load, whatever follows it in the file, and exactly the bytes written are consumed.", "quantifier": "for every sequence of values of the supported kinds", "why_tests_cant": "Quantifies over all values and sequences, e.g. vectors of any length.", "anchors": ["source/core/utilities/model_persistence.hpp: dispatch_buffer_io, serialize, deserialize", "source/core/utilities/model_persistence.cpp"]}
{"id": "C14", "title": "A damaged model file is refused, never over-read", "statement": "Loading from a file that was cut short, or whose element counts are negative or larger than the remaining data, ends with invalid_file_data and never reads beyond the bytes present.", "quantifier": "for every byte string and every truncation point", "why_tests_cant": "All byte strings; memory safety is not observable in a passing test.", "anchors": ["source/core/utilities/model_persistence.hpp: model_loader::deserialize", "source/core/utilities/model_persistence.cpp"]}
{"id": "C15", "title": "The buffer size computed before saving is the size that is written", "statement": "The dry run that computes the file size of a model and the run that writes it agree to the byte, so saving never overflows the buffer and leaves no gap.", "quantifier": "for every sequence of values of the supported kinds", "why_tests_cant": "Must hold for every model content; overflow would be silent memory corruption.", "anchors": ["source/core/utilities/model_persistence.hpp: model_saver::reserve, serialize"]}
{"id": "C16", "title": "The error trace keeps the first error and is bounded", "statement": "After any sequence of recorded errors, da_handle_print_error_message / the status query reports the first error recorded since the last reset (a clear, or a record made without stacking, which discards the earlier trace), the trace never exceeds its fixed capacity, and its last slot tells the reader that the trace overflowed.", "quantifier": "for every history of record/clear calls of any length", "why_tests_cant": "Invariant over unbounded histories.", "anchors": ["source/core/utilities/da_error.hpp: da_error_t::rec, clear, get_status, get_mesg"]}
{"id": "C17", "title": "The growable vector is a list", "statement": "Any sequence of push_back, append, resize, reserve, clear on the internal growable vector leaves it holding exactly the elements a list would hold, and never writes outside its allocation.", "quantifier": "for every history of operations and every length", "why_tests_cant": "Growth happens at unbounded sizes; out-of-bounds writes are invisible to functional tests.", "anchors": ["source/core/utilities/da_vector.hpp: da_vector::push_back, append, resize, reserve"]}
{"id": "C18", "title": "The kernel-row cache returns the row stored under that key", "statement": "A cache hit returns exactly the data most recently stored for the key, the number of cached rows never exceeds the capacity, two keys never share a slot, and the entry evicted is always one least recently used.", "quantifier": "for every history of get/put calls with any keys", "why_tests_cant": "Invariant over unbounded histories; a stale row silently changes SVM results.", "anchors": ["source/core/utilities/da_cache.hpp: LRUCache::get, LRUCache::put"]}
{"id": "C19", "title": "Integer cells parse to their exact value or are refused", "statement": "The CSV integer reader succeeds exactly on the strings made of optional blanks, optional sign, digits with optional thousands separators and optional blanks whose value fits the type, and then stores exactly that value; it never overflows.", "quantifier": "for every string and every thousands separator, 32- and 64-bit", "why_tests_cant": "All strings; overflow in particular occurs at the extreme of the range.", "anchors": ["source/core/csv/char_to_num.hpp: char_to_num (int64_t, int32_t)"]}
{"id": "C20", "title": "A quoted CSV table reads back cell for cell", "statement": "A table of arbitrary strings written with every cell quoted (quotes and escapes escaped) and rows ended by newline is tokenised into exactly the same rows and cells.", "quantifier": "for every rectangular table of strings over all characters, including delimiters, quotes, escapes and line breaks inside cells", "why_tests_cant": "All tables of all strings.", "anchors": ["source/core/csv/tokenizer.c: tokenize_bytes, push_char, end_field, end_line, tokenizer_handle_eof"]}
{"id": "C21", "title": "Reading a CSV file does not depend on how it is cut into chunks", "statement": "The tokenised result is the same whatever the size of the chunks in which the file is delivered to the tokeniser.", "quantifier": "for every byte string and every way of cutting it into chunks (default CSV options)", "why_tests_cant": "Every cut point in every file, e.g. between a carriage return and newline or inside an escape.", "anchors": ["source/core/csv/tokenizer.c: tokenizer_buffer_bytes, tokenize_bytes, _tokenize_helper"]}
{"id": "C22", "title": "A malformed CSV file is reported", "statement": "da_read_csv_* does not return success for a file with a row longer than the previous rows or an unterminated quote; in particular it never silently drops the rest of the file.", "quantifier": "for every file content", "why_tests_cant": "All malformed files; the outcome depends on totals over the file.", "anchors": ["source/core/csv/read_csv.hpp: parse_file, populate_data_array", "source/core/csv/tokenizer.c: end_line"]}
{"id": "C23", "title": "CSV cells land at their row and column", "statement": "When da_read_csv_* succeeds the returned matrix has one row per line and one column per field, and entry (i,j) is the parsed value of field j of line i, for both storage orders; a table whose lines have different field counts is refused.", "quantifier": "for every tokenised file and both storage orders", "why_tests_cant": "All shapes; the offsets depend on header and footer lines.", "anchors": ["source/core/csv/read_csv.hpp: populate_data_array, parse_headings"]}
{"id": "C24", "title": "Automatic column typing depends only on the cells of the column", "statement": "In da_data_load_from_csv with automatic typing, every column ends with exactly one entry per row, the column type is the narrowest of integer, real, boolean, string that accepts every cell, it does not depend on the order of the rows, and the stored values are the parsed cells.", "quantifier": "for every column of cells of any length and in any order", "why_tests_cant": "The column is retyped in place as cells arrive; all interleavings of cell kinds matter.", "anchors": ["source/core/data_management/auto_detect_csv.hpp: detect_columns, update_column, bytes_to_..."]}
{"id": "C25", "title": "Sample sorting returns the samples in feature order", "statement": "The index sorts used to train trees (heap sort, introsort, bucket sort) leave a permutation of the sample indices ordered by feature value.", "quantifier": "for every array of values, with repeated values, and every range of samples", "why_tests_cant": "All inputs; quicksort-style partitioning fails on specific tie patterns.", "anchors": ["source/core/decision_forest/common/idx_sorting.cpp: heapify, heap_sort, intro_sort, pivot_median3, bucket_sort_samples"]}
{"id": "C26", "title": "Splitting a node sends every sample to one side", "statement": "Partitioning the samples of a node by a split keeps every sample exactly once, puts those satisfying the split on the left and the others on the right, and reports the correct left count.", "quantifier": "for every list of samples, every feature column and threshold or category", "why_tests_cant": "All arrangements of samples; errors occur at the boundary where the two scan positions meet.", "anchors": ["source/core/decision_forest/tree/decision_tree_training_partition.hpp: partition_samples_raw_continuous, partition_samples_raw_onevall, partition_samples_hist_*"]}
{"id": "C27", "title": "Histogram binning agrees with the thresholds", "statement": "Every sample is put in the bin equal to the number of thresholds not exceeding its value, so that 'bin <= b' during training means the same as 'value < threshold b' during prediction.", "quantifier": "for every sorted list of thresholds of any length and every value", "why_tests_cant": "Binary search boundary cases at every table length.", "anchors": ["source/core/decision_forest/common/histogram.cpp: compute_histograms, compute_thresholds"]}
{"id": "C28", "title": "Training samples reach in prediction the leaf they were assigned in training", "statement": "Following a fitted tree from the root with a training sample reaches the leaf into whose sample range training placed it, and every path ends in a leaf.", "quantifier": "for every training set and every tree that training can produce", "why_tests_cant": "All trees and all samples.", "anchors": ["source/core/decision_forest/tree/decision_tree_training_fit.hpp", "source/core/decision_forest/tree/decision_tree_inference.hpp: predict, predict_proba"]}
{"id": "C29", "title": "The bounded heap keeps the k smallest distances", "statement": "After any sequence of insertions the k-nearest-neighbour heap holds the k smallest (index,distance) pairs inserted so far (ties aside), and its reported maximum is the largest of them.", "quantifier": "for every k and every sequence of insertions", "why_tests_cant": "All sequences of distances including ties and infinities.", "anchors": ["source/core/nearest_neighbors/binary_tree.cpp: MaxHeap::Insert, heapify_up, heapify_down, GetMaxDist"]}
{"id": "C30", "title": "Tree radius search equals brute force", "statement": "The k-d tree and ball tree radius searches return for a query exactly the indices of all stored samples within the radius (excluding the query itself when asked), each once.", "quantifier": "for every data set, leaf size, radius and query point, for the Euclidean, Manhattan and Minkowski (p>=1) metrics", "why_tests_cant": "Pruning errors only appear for particular geometric configurations.", "anchors": ["source/core/nearest_neighbors/kd_tree.cpp: build_tree, radius_neighbors_recursive, check_bounding_box", "source/core/nearest_neighbors/ball_tree.cpp: build_tree, check_ball, radius_neighbors_recursive"]}
{"id": "C31", "title": "Tree k-nearest-neighbour search is exact", "statement": "The distances returned by the k-d tree and ball tree searches are the k smallest distances from the query to the stored samples, attained by the returned indices.", "quantifier": "for every data set, leaf size, k and query point", "why_tests_cant": "Pruning with a changing bound; errors only for particular configurations and visit orders.", "anchors": ["source/core/nearest_neighbors/kd_tree.cpp: k_neighbors_recursive", "source/core/nearest_neighbors/ball_tree.cpp: k_neighbors_recursive", "source/core/nearest_neighbors/binary_tree.cpp: MaxHeap"]}
{"id": "C32", "title": "Brute-force radius neighbours are complete, symmetric and schedule independent", "statement": "For every sample the brute-force radius search returns exactly the other samples within eps under the chosen metric, each once, for every distribution of the blocks over threads.", "quantifier": "for every data set, eps, block size and every assignment of block pairs to threads", "why_tests_cant": "Thread schedules cannot be enumerated by tests; block boundaries vary with n.", "anchors": ["source/core/nearest_neighbors/radius_neighbors.cpp: radius_neighbors_brute", "source/core/utilities/da_utils.cpp: blocking_scheme"]}
{"id": "C33", "title": "DBSCAN labels are the density-connected clusters", "statement": "After da_dbscan_compute two core samples have the same label exactly when they are linked by a chain of core samples at most eps apart; a non-core sample within eps of a core sample carries the label of such a core sample; all other samples are noise (-1); labels are 0..n_clusters-1.", "quantifier": "for every neighbourhood graph, every min_samples and every thread schedule", "why_tests_cant": "A global graph property: small tests rarely contain the chains that break incremental merging; parallel schedules are not controllable.", "anchors": ["source/core/clustering/dbscan/dbscan.cpp: dbscan_clusters_serial, dbscan_clusters_parallel, dbscan_clusters"]}
{"id": "C34", "title": "Quantiles are those of the sorted sample", "statement": "da_quantile_* returns for each requested probability the value the documented quantile type assigns to the sorted sample, independently of which other probabilities are requested in the same call and of their order.", "quantifier": "for every sample, every list of probabilities in [0,1] and every quantile type", "why_tests_cant": "Selection is reused between probabilities; whether it is correct depends on the whole list of requests.", "anchors": ["source/core/basic_statistics/order_statistics.cpp: quick_selection, get_quantile_indices, quantile"]}
{"id": "C35", "title": "Train/test split partitions the rows", "statement": "da_train_test_split copies row shuffle[i] (or i) to train row i for i<train_size and row shuffle[train_size+i] to test row i, for both storage orders, serial or parallel, and touches nothing else.", "quantifier": "for every matrix, sizes, leading dimensions, shuffle array and number of threads", "why_tests_cant": "Four code paths with different index arithmetic must agree for all sizes.", "anchors": ["source/core/utilities/train_test_split.cpp: train_test_split", "source/core/utilities/train_test_split_internal.hpp: split_row_data_serial, split_row_data_parallel, split_column_data"]}
{"id": "C36", "title": "Stratified shuffling keeps class proportions and never leaks", "statement": "da_get_shuffled_indices_* with classes returns train_size+test_size distinct valid row indices; the number of train rows of each class differs from its exact proportional share of the data by less than one; the number of test rows of each class differs from its exact share of the rows left after the train rows were chosen by less than one (which is the share of the whole data when train and test together use every row).", "quantifier": "for every class vector, sizes and every outcome of the random generator", "why_tests_cant": "Holds for every random outcome; tests see one seed.", "anchors": ["source/core/utilities/da_utils.cpp: class_frequency_approximation, stratified_shuffle, get_shuffled_indices"]}
{"id": "C37", "title": "Changing storage order keeps the matrix", "statement": "The blocked transposing copies between row-major and column-major storage give output cell (i,j) the value of input cell (i,j) for all cells, and write no padding.", "quantifier": "for every shape, leading dimension and every order of executing the blocks", "why_tests_cant": "All shapes relative to the block size; all schedules.", "anchors": ["source/core/utilities/da_utils.cpp: copy_transpose_2D_array_row_to_column_major, copy_transpose_2D_array_column_to_row_major, copy_array_convert_precision"]}
{"id": "C38", "title": "Work is divided without gaps or overlaps", "statement": "The blocking schemes used by the parallel routines cut n samples into blocks that cover every sample exactly once with every block non-empty.", "quantifier": "for every number of samples, block size and thread count", "why_tests_cant": "All combinations; gaps appear only for particular remainders.", "anchors": ["source/core/utilities/da_utils.cpp: blocking_scheme, tall_skinny_blocking_scheme", "source/core/nearest_neighbors/ball_tree.cpp: parallel_centroid_radius", "source/core/nearest_neighbors/kd_tree.cpp: parallel_variance"]}
{"id": "C39", "title": "Forest voting returns a class with the most votes", "statement": "da_forest_predict_* returns for each sample the smallest class among those predicted by the largest number of trees, independently of how samples and trees are divided among threads.", "quantifier": "for every forest, every sample and every division of the work", "why_tests_cant": "All vote distributions and all thread counts.", "anchors": ["source/core/decision_forest/forest/decision_forest_inference.hpp", "source/core/decision_forest/forest/decision_forest_training.hpp: compute_thread_distribution"]}
{"id": "C40", "title": "Labels and columns correspond one to one", "statement": "After a successful da_data_label_column, looking the label up gives that column and asking the column for its label gives that label, for all labels set so far.", "quantifier": "for every history of labelling calls", "why_tests_cant": "Two tables must stay mutually inverse over all histories, including relabelling and reuse.", "anchors": ["source/core/data_management/data_store.hpp: data_store::label_column, get_idx_from_label, get_col_label"]}
{"id": "C41", "title": "The categorical-data check is exact", "statement": "A data vector is declared categorical with n categories exactly when every entry is within the tolerance of an integer in [0,max) and n-1 is the largest of them.", "quantifier": "for every vector and every tolerance below one half", "why_tests_cant": "All vectors; early exit interacts with the running maximum.", "anchors": ["source/core/utilities/da_utils.cpp: check_categorical_data"]}
{"id": "C42", "title": "Brute-force k-nearest neighbours returns the k nearest samples in order", "statement": "The brute-force k-nearest-neighbour search returns for every query k distinct samples with their own distances, sorted nearest first, and no omitted sample is nearer than a returned one.", "quantifier": "for every data size, distance matrix (with ties), 1 <= k <= number of samples, vector width and distribution of block pairs over threads", "why_tests_cant": "All distance patterns, block counts and thread schedules.", "anchors": ["source/core/nearest_neighbors/nearest_neighbors_utils.hpp: sorted_n_dist_n_ind, smaller_values_and_indices_vectorized_kernel, larger_values_and_indices_vectorized_kernel", "source/core/nearest_neighbors/nearest_neighbors.cpp: kneighbors_compute_brute_force"]}
{"id": "C43", "title": "A key held by the LRU cache is found", "statement": "A cache lookup misses only if no entry of the key is in the cache.", "quantifier": "every interleaving of get and put steps of any number of threads, any keys", "why_tests_cant": "All histories of calls and thread interleavings, including repeated keys.", "anchors": ["source/core/utilities/da_cache.hpp: LRUCache::get, LRUCache::put"]}
{"id": "C44", "title": "kernel_compute delivers the right kernel columns", "statement": "Every call of kernel_compute made by the SVM solver (main loop, warm start, and main loop after the parallel start of nu-SVM) delivers for each element of the index set the kernel column of that sample, whatever was cached before; no delivered pointer into the cache is overwritten within the call.", "quantifier": "every cache capacity, working set size, sequence of index sets (repeated samples included) and kernel function, interleaving of the threads that fill the cache", "why_tests_cant": "All sequences of working sets and all cache capacities relative to the working set size.", "anchors": ["source/core/svm/base_svm.cpp: kernel_compute, recompute_gradient, compute_impl", "source/core/utilities/da_cache.hpp: LRUCache", "source/core/svm/nu_svm.cpp: initialise_gradient"]}
{"id": "C45", "title": "CSV cells are read as the real number they denote", "statement": "The CSV reader of real numbers succeeds exactly on texts that denote a number (blanks, sign, digits with optional decimal point, exponent, blanks) of at most 17 digits (9 for float) within the exponent range, with exactly that value up to rounding; it never has undefined behaviour.", "quantifier": "every string and every choice of decimal, exponent and thousands characters", "why_tests_cant": "All strings; overflow of the exponent and ignored trailing text depend on rare inputs.", "anchors": ["source/core/csv/char_to_num.hpp: char_to_num (double, float)"]}
{"id": "C46", "title": "Training data kept by reference is saved as the user's matrix", "statement": "When a handle that refers to a matrix of the user (with any storage order and leading dimension) is saved and loaded, every element (i, j) of the loaded matrix equals element (i, j) of the original.", "quantifier": "for every matrix shape, storage order and leading dimension", "why_tests_cant": "All shapes and strides; the defect shows only for row-major single-column matrices with padding.", "anchors": ["source/core/utilities/model_persistence.cpp: serialization_buffer::serialize_user_data", "source/core/factorization/kernel_pca/kernel_pca.cpp: kernel_pca<T>::serialize, load_model", "source/core/approximate_neighbors/approximate_neighbors.cpp: approximate_neighbors<T>::serialize"]}
{"id": "C47", "title": "A refused option change leaves the handle as it was", "statement": "When da_options_set_* returns an error, the options and the fitted model of the handle are as before the call.", "quantifier": "for every handle, option name and value", "why_tests_cant": "All names, values and handle states; tests check the returned status and not what became of an already fitted model.", "anchors": ["source/core/utilities/options_public.cpp: da_options_set", "source/core/utilities/da_handle.cpp: _da_handle::get_current_opts"]}
{"id": "C48", "title": "The getter of string options stays inside the caller's buffer", "statement": "da_options_get_string with a buffer and its length (or less) either writes the value and a NUL inside the buffer, or refuses, reports the length needed and writes nothing.", "quantifier": "for every registry, name, buffer and length", "why_tests_cant": "All lengths including zero and negative ones against all values.", "anchors": ["source/core/utilities/options_public.cpp: da_options_get, da_datastore_options_get"]}
{"id": "C49", "title": "Bootstrap samples are counted exactly", "statement": "Compressing a bootstrap sample lists every drawn row once, in increasing order, and records for each row how many times it was drawn.", "quantifier": "for every multiset of drawn rows", "why_tests_cant": "All samples; run-length loops fail at the last run or at particular repetition patterns.", "anchors": ["source/core/decision_forest/common/idx_sorting.cpp: compress_count_occurences"]}
{"id": "C51", "title": "Histogram thresholds fit their table", "statement": "Computing the histogram thresholds of a feature writes at most max_bin - 1 thresholds, strictly increasing, never accesses memory outside its arrays, and leaves no bin without a sample.", "quantifier": "for every number of bins, every number of samples and every sorted column of values", "why_tests_cant": "All sizes; accumulated rounding exceeds the table only for particular combinations of size and bin count.", "anchors": ["source/core/decision_forest/common/histogram.cpp: compute_thresholds"]}
{"id": "C50", "title": "Candidate splits are judged by the samples they separate", "statement": "A split of a node on a continuous feature that the search accepts was scored with the class counts of the samples on its two sides, lies inside the node, and leaves at least 'node minimum samples' samples on each side.", "quantifier": "for every node, every sorted column of values with ties, all bootstrap weights, every scoring function and every option value", "why_tests_cant": "All tie patterns and minimum sizes; a wrong count only shows as a slightly different tree.", "anchors": ["source/core/decision_forest/tree/decision_tree_training_split.hpp: split_raw_continuous, update_split_sorted, update_count_left, update_count_right"]}
{"id": "C53", "title": "Splits on categories and bins are judged by the samples they separate", "statement": "A split of a node on a category or on a histogram bin that the search accepts was scored with the class counts (with bootstrap frequencies) of the samples it sends left and right, and leaves at least 'node minimum samples' samples on each side.", "quantifier": "for every node, every column of categories or bins, all bootstrap frequencies, every scoring function and every option value", "why_tests_cant": "All category patterns and bootstrap frequencies; a wrong count only shows as a slightly different tree.", "anchors": ["source/core/decision_forest/tree/decision_tree_training_split.hpp: split_raw_onevall, compute_best_split_hist, update_node_histogram, update_count_left_right"]}
{"id": "C52", "title": "Predicted probabilities come from the predicted leaf", "statement": "For every point, predict_proba of a fitted tree reaches the same leaf as predict, so the class predicted is one of highest probability.", "quantifier": "for every training set, every tree that training can produce and every point", "why_tests_cant": "All trees and points; the two walks are written separately and differ only for some kinds of splits.", "anchors": ["source/core/decision_forest/tree/decision_tree_inference.hpp: predict, predict_proba"]}
{"id": "C54", "title": "A leaf predicts the commonest class of its training samples", "statement": "The class stored in a node is the smallest among the most frequent classes (with bootstrap frequencies) of the training samples in its range, and the counts stored are those of its samples.", "quantifier": "for every training set, all bootstrap frequencies and every tree that training can produce, whatever the comparisons of values give", "why_tests_cant": "All trees; later partitions rearrange the samples and could invalidate the stored counts.", "anchors": ["source/core/decision_forest/tree/decision_tree_training_fit.hpp: count_class_occurences, add_node, split_node_and_add_children"]}
{"id": "C55", "title": "The reported size of a tree is its size", "statement": "After training, n_leaves is the number of leaves of the tree and depth is the depth of its deepest node.", "quantifier": "for every training set, every option value and every sequence of fits", "why_tests_cant": "All trees, option values and refits.", "anchors": ["source/core/decision_forest/tree/decision_tree_training_fit.hpp: fit, fit_serial, split_node_and_add_children"]}
{"id": "C56", "title": "A forest predicts only for the data it was fitted to", "statement": "da_forest_predict_* is refused, or gives the class with the most votes of trees that were fitted to the handle's current data; it never accesses memory outside its arrays or a missing tree.", "quantifier": "for every sequence of calls on a handle, every division of the work and every order of the threads' accesses", "why_tests_cant": "All call sequences; setting new data or a failed fit between fit and predict.", "anchors": ["source/core/decision_forest/forest/decision_forest_handle_utilities.hpp: set_training_data", "source/core/decision_forest/forest/decision_forest_training.hpp: fit", "source/core/decision_forest/forest/decision_forest_inference.hpp: predict"]}
{"id": "C57", "title": "Forest probabilities are the mean over the trees", "statement": "da_forest_predict_proba_* gives for each sample and class the mean over the trees of the proportion of the class in the leaf reached, the probabilities of a sample sum to one, and no access is outside its array, independently of how samples and trees are divided among threads.", "quantifier": "for every forest, every sample, every division of the work and every order of the threads' accesses, in exact arithmetic", "why_tests_cant": "All thread counts, schedules and sizes; a wrong stride only shows for some of them.", "anchors": ["source/core/decision_forest/forest/decision_forest_inference.hpp: predict_proba"]}
{"id": "C58", "title": "Every CSV word is a terminated string in the buffer", "statement": "After tokenising, every word pointer of the parser points into the stream buffer at a NUL-terminated string, so that the conversion of words to numbers and strings reads no memory outside the buffer.", "quantifier": "for every byte string, every way of cutting it into chunks and every way the reading can end", "why_tests_cant": "All files; the buffer is exhausted only by particular combinations of lengths.", "anchors": ["source/core/csv/tokenizer.c: push_char, end_field, end_line, make_stream_space, tokenizer_handle_eof"]}
{"id": "C59", "title": "A CSV read depends on its own options and file", "statement": "A read on a handle that has been used before skips the same lines, uses the same options and reports the same ignored lines as a read on a new handle with the same options and file.", "quantifier": "for every sequence of earlier reads with any options and files", "why_tests_cant": "All call sequences with all options.", "anchors": ["source/core/csv/csv_reader.hpp: read_options", "source/core/csv/tokenizer.c: parser_set_skipfirstnrows, parser_reset, parser_store_skipped_row", "source/core/csv/read_csv.hpp: parse_file"]}
{"id": "C60", "title": "Skipped CSV rows leave the other rows as they are", "statement": "With \"row start\" and \"skip rows\", a quoted table is read as the table without the rows with these numbers.", "quantifier": "for every set of row numbers and every rectangular table of strings", "why_tests_cant": "All tables and sets of rows; line breaks, quotes and escapes inside the skipped cells.", "anchors": ["source/core/csv/tokenizer.c: skip_this_line, tokenize_bytes (START_FIELD_IN_SKIP_LINE and following states), end_line"]}
{"id": "C61", "title": "The kind of line end does not matter", "statement": "A file without quotes, escapes and carriage returns gives the same table when every newline is replaced by carriage return and newline, or by a carriage return.", "quantifier": "for every such file, every cut of the file and of its replacement (default CSV options)", "why_tests_cant": "All files; empty lines, comments and delimiters beside the line ends.", "anchors": ["source/core/csv/tokenizer.c: tokenize_bytes (EAT_CRNL and the states in front of it)"]}
{"id": "C62", "title": "\"skip rows\" names exactly the lines to skip", "statement": "A new handle whose option \"skip rows\" is a list of numbers separated by commas and spaces and whose \"row start\" is s skips line n, counted from 0, exactly when n is in the list or n < s.", "quantifier": "for every list of numbers below 2^31, every use of commas and spaces, every s and every line", "why_tests_cant": "All texts and all lines.", "anchors": ["source/core/csv/csv_reader.hpp: read_options", "source/core/csv/tokenizer.c: parser_add_skiprow, parser_set_skipfirstnrows, skip_this_line"]}
{"id": "C63", "title": "Conversion from half to single precision is exact", "statement": "Every binary16 number is converted to the binary32 number with the same sign and value; infinities stay infinite, NaN stays NaN, and converting back gives the same pattern, or a NaN for a NaN.", "quantifier": "for every bit pattern of 16 bits", "why_tests_cant": "Sign, exponent and fraction of subnormal numbers are rebuilt in a loop; tests look at some values only.", "anchors": ["source/core/utilities/fp16_helpers.hpp: f16_bits_to_f32"]}
{"id": "C64", "title": "Conversion from single to half precision rounds to nearest even", "statement": "A finite binary32 number below 65520 in size is converted to a nearest binary16 number, the even one of two; larger numbers become infinite; infinities stay infinite, NaN stays NaN; the sign is kept.", "quantifier": "for every bit pattern of 32 bits", "why_tests_cant": "2^32 patterns; the wrong ones are those between half of the smallest half-precision number and that number.", "anchors": ["source/core/utilities/fp16_helpers.hpp: f32_to_f16_bits"]}
{"id": "C65", "title": "Recursive rank-k update for half precision", "statement": "In exact arithmetic cblas_syrk for _Float16 turns the chosen triangle of C into alpha op(A) op(A)^T + beta C and changes no other position.", "quantifier": "for all sizes, layouts, triangles, transpositions, offsets and leading dimensions with n <= ldc", "why_tests_cant": "The recursion depends on n; every split, layout and triangle has its own offsets.", "anchors": ["source/core/utilities/fp16_helpers.hpp: cblas_syrk, cblas_syrk_fp16_leaf"]}
{"id": "C66", "title": "Vector operations for half precision", "statement": "In exact arithmetic cblas_dot, cblas_gemv and omatcopy for _Float16 compute the scalar product, alpha op(A) x + beta y and alpha A or its transpose, and change no other position.", "quantifier": "for all sizes, layouts, transpositions, positive increments and leading dimensions that fit", "why_tests_cant": "Blocks of 1024 and strides: all sizes and all strides.", "anchors": ["source/core/utilities/fp16_helpers.hpp: cblas_dot, cblas_gemv, omatcopy"]}
{"id": "C67", "title": "Matrix norms for half precision", "statement": "In exact arithmetic lange for _Float16 gives the largest absolute value, the largest column or row sum, or the Frobenius norm; NaN if an element is NaN.", "quantifier": "for every matrix that is not empty, every leading dimension and every content of the work array", "why_tests_cant": "NaN can be anywhere and the running scale of the Frobenius norm depends on the order of the elements.", "anchors": ["source/core/utilities/fp16_helpers.hpp: lange"]}
{"id": "C68", "title": "Largest element for half precision", "statement": "cblas_iamax for _Float16 gives the first position of an element with the largest absolute value.", "quantifier": "for every vector without NaN that is not empty, every positive increment", "why_tests_cant": "All ties and signs.", "anchors": ["source/core/utilities/fp16_helpers.hpp: cblas_iamax"]}
{"id": "C69", "title": "Working sets of the SVM solver consist of distinct entries", "statement": "In every iteration outer_wss fills the working set with ws_size distinct, valid entries; ws_size is the largest power of two not above the number of entries, or the user's maximum.", "quantifier": "for every data set, gradient, sorting, number of iterations and working set size", "why_tests_cant": "Whether the selection fills the working set depends on the gradient and on the classes; leftovers of earlier iterations go unnoticed.", "anchors": ["source/core/svm/c_svm.cpp: outer_wss", "source/core/svm/nu_svm.cpp: outer_wss", "source/core/svm/base_svm.cpp: compute_ws_size, maxpowtwo, compute_impl"]}
{"id": "C70", "title": "The SVM solver keeps the dual constraints and the gradient", "statement": "In exact arithmetic, after any number of iterations 0 <= alpha <= C, the equality constraint of the dual problem (sum of y*alpha; for nu also the class sums) is unchanged, and the stored gradient is the gradient of the dual objective at alpha.", "quantifier": "for every kernel, data set, sorting, working set size and number of iterations", "why_tests_cant": "All trajectories of the solver.", "anchors": ["source/core/svm/c_svm.cpp: local_smo", "source/core/svm/nu_svm.cpp: local_smo", "source/core/svm/base_svm.cpp: wssi, wssj, update_gradient_impl", "source/core/svm/svm_kernels.cpp: wssj_kernel_scalar"]}
{"id": "C71", "title": "The SVM solver never increases the dual objective", "statement": "In exact arithmetic each iteration leaves the dual objective equal or smaller.", "quantifier": "for every symmetric kernel, positive definite or not, every data set and number of iterations", "why_tests_cant": "All trajectories and all kernels, including indefinite ones such as the sigmoid.", "anchors": ["source/core/svm/c_svm.cpp: local_smo", "source/core/svm/nu_svm.cpp: local_smo"]}
{"id": "C72", "title": "Convergence of the SVM solver means optimality", "statement": "If an iteration reports a first difference below the tolerance, no pair of entries violates the optimality condition by the tolerance or more, and the iteration changed nothing.", "quantifier": "for every kernel, data set, working set size of at least 2 and number of iterations", "why_tests_cant": "The violators could be any pair outside the working set.", "anchors": ["source/core/svm/base_svm.cpp: compute_impl", "source/core/svm/c_svm.cpp: outer_wss, local_smo", "source/core/svm/nu_svm.cpp: outer_wss, local_smo"]}
{"id": "C73", "title": "A warm start of the SVM solver begins with the right gradient", "statement": "After recompute_gradient the gradient is the gradient of the dual objective of the model at the given multipliers, and the multipliers taken over from the low-precision solution are within the box.", "quantifier": "for every model, kernel, data set and vector of multipliers", "why_tests_cant": "The wrong case needs multipliers that are all zero; the others cover any number of blocks of columns.", "anchors": ["source/core/svm/base_svm.cpp: recompute_gradient", "source/core/svm/svm.cpp: compute (mixed precision)"]}
{"id": "C74", "title": "Gradient sums of the SVM solver do not depend on the threads", "statement": "The gradient update and the initial gradient of the nu models are the same (in exact arithmetic) for every distribution of columns or blocks over the threads and every order of execution, and the thread buffers are zero again afterwards.", "quantifier": "for every number of threads, schedule, kernel and vector of multipliers", "why_tests_cant": "Schedules cannot be enumerated by running the code.", "anchors": ["source/core/svm/base_svm.cpp: update_gradient_impl", "source/core/svm/nu_svm.cpp: initialise_gradient"]}
{"id": "C75", "title": "The cold start of the SVM solver is feasible", "statement": "The initial multipliers are in the box, balanced and, for the nu models, have the prescribed sum in each class, and the initial gradient is the gradient of the dual objective; training keeps this.", "quantifier": "for every model, data set with labels 0 and 1, C > 0 and nu in (0, 1]", "why_tests_cant": "Depends on the sizes of the classes and on nu in a continuous way.", "anchors": ["source/core/svm/c_svm.cpp: svc::initialisation, svr::initialisation", "source/core/svm/nu_svm.cpp: nusvc::initialisation, nusvr::initialisation"]}
{"id": "C76", "title": "The SVM decision function does not depend on threads and blocks", "statement": "decision_function gives bias + sum of coefficient times kernel value over all support vectors for every test sample; every block stays inside the arrays and the buffers of its thread; dropping multipliers up to the threshold changes a value by at most the threshold times the sum of the kernel values.", "quantifier": "for all numbers of samples, support vectors and threads, and every order of the atomic additions", "why_tests_cant": "Schedules and sizes cannot be enumerated by running the code.", "anchors": ["source/core/svm/base_svm.cpp: decision_function, decision_function_block", "source/core/svm/c_svm.cpp: set_sv", "source/core/svm/nu_svm.cpp: set_sv"]}
{"id": "C77", "title": "The SVM bias meets the optimality conditions", "statement": "If no pair of entries violates the optimality condition by the tolerance, the bias gives margins of 1 (classification) or residuals of epsilon (regression) up to the tolerance on all training samples, on the right side for each state of the multipliers; the bias lies between gradients of the training samples.", "quantifier": "for every model, data set, kernel and state of the multipliers", "why_tests_cant": "Statement about all states at which the solver can stop; the wrong cases need a class without entries that can move.", "anchors": ["source/core/svm/c_svm.cpp: csvm::set_bias", "source/core/svm/nu_svm.cpp: nusvm::set_bias", "source/core/svm/svm.cpp: set_data (no check for an empty class in the binary case)"]}
{"id": "C78", "title": "Results of a multiclass SVM are assembled correctly", "statement": "After set_data and any number of calls of compute, n_sv, n_sv_per_class, support_indexes and support_coefficients describe exactly the samples with a multiplier above the threshold in some one-versus-one classifier, ordered by class and row, with the signed coefficient of every classifier in its row, and nothing is written outside the arrays; support_vectors holds the rows of the data.", "quantifier": "for all numbers of samples and classes, labels, multipliers, and sequences of fits", "why_tests_cant": "The layout depends on all label patterns; the wrong cases need a second fit of the same handle or a leading dimension above the number of rows.", "anchors": ["source/core/svm/svm.cpp: set_data, compute (645-751)", "source/core/svm/c_svm.cpp: set_sv", "source/core/svm/nu_svm.cpp: set_sv"]}
{"id": "C79", "title": "Votes, predictions and one-versus-rest values of a multiclass SVM", "statement": "The votes of a class count the classes it beats; predict returns the smallest class with the most votes; the one-versus-rest values are the votes plus a correction below 1/3 with the sign of the summed decision values, so their maximum has the most votes, and it is the predicted class.", "quantifier": "for all numbers of classes and all decision values", "why_tests_cant": "All decision values; the difference between predict and decision_function needs cyclic wins.", "anchors": ["source/core/svm/svm.cpp: predict (795-840), decision_function (905-945)"]}
{"id": "C80", "title": "An SVM handle stays consistent over any sequence of calls", "statement": "No sequence of select_model, option changes, set_data (successful or not), compute and predict reads released memory or outside an array; a prediction is only made with the number of features of the last successful set_data; every fit uses the same kernel values.", "quantifier": "for all sequences of calls, sizes and failing checks", "why_tests_cant": "Sequences of calls are unbounded; the wrong ones need a failed set_data between two successful calls, or a second fit.", "anchors": ["source/core/svm/svm.cpp: select_model, set_data, compute, predict", "source/core/svm/base_svm.cpp: compute_impl (225-238)", "source/core/utilities/basic_handle.cpp: store_2D_array"]}
{"id": "C81", "title": "SVM class probabilities form a distribution and solve the coupling problem", "statement": "predict_proba gives, for every sample and any decision values, non-negative probabilities that sum to one; every update lowers the quadratic form of the pairwise coupling; if the iterations stop before their limit the form is within 8*eps/K of the value of every other distribution; consistent pairwise probabilities have gap zero; for two classes the probability is the logistic function of the decision value.", "quantifier": "for all numbers of classes, decision values and parameters", "why_tests_cant": "The coupling is an iteration over real values for any number of classes.", "anchors": ["source/core/svm/svm.cpp: predict_proba (1108-1195)"]}
{"id": "C82", "title": "The SVM probability parameters are fitted on held-out decision values and minimise the likelihood", "statement": "Every sample gets its decision value from a classifier trained on exactly the samples of the other folds; the Newton matrix is positive definite and its direction goes downhill; the negative log likelihood never increases; at reported convergence no other parameters are better by more than 1e-5 times the distance; if compute reports success the parameters are those of the fit.", "quantifier": "for all sample counts, fold counts, permutations, labels and decision values", "why_tests_cant": "Any permutation of any number of samples; the lost error needs more folds than samples of a pair of classes.", "anchors": ["source/core/svm/svm.cpp: compute_probabilities (1235-1485), compute (578-641)"]}
{"id": "C83", "title": "The cell search of the interpolation finds the cell of every point", "statement": "set_sites accepts exactly the strictly increasing sites; for every accepted set of sites and every point search_cells is defined and returns the cell that contains the point, the first cell for points below the sites and the last for points at or above the last site; the same for uniform sites.", "quantifier": "for all numbers of sites, sites and points, in exact arithmetic and in float and double", "why_tests_cant": "The wrong cells need points within a few units in the last place of a site, and the undefined conversion needs points very far away.", "anchors": ["source/core/interpolation/interpolation_generic.hpp: set_sites_1d (114-192), set_sites_uniform_1d (195-239), search_cells (322-365)"]}
{"id": "C84", "title": "Cubic splines interpolate, are smooth, satisfy their boundary conditions and are the only ones to do so", "statement": "For natural, clamped and custom splines the coefficients give a piecewise cubic through all values with continuous first and second derivatives and the required conditions at both ends; the equations have exactly one solution; a cubic satisfying the boundary conditions is reproduced; Hermite splines have the given values and derivatives at the sites; values with any leading dimension are read correctly; evaluate writes the derivative of order orders[p] in block p and nothing else.", "quantifier": "for all numbers of sites and dimensions, sites, values, both storage orders, boundary conditions, and lists of derivative orders", "why_tests_cant": "The equations hold for any number of sites and any real values.", "anchors": ["source/core/interpolation/cubic_spline/cubic_spline.cpp: initialize_system, coeffs_from_second_derivatives, compute_*_spline, interpolate, evaluate (104-567)", "source/core/interpolation/interpolation_generic.hpp: set_values_1d (243-318)"]}
{"id": "C85", "title": "An interpolation handle stays safe and correct over any sequence of calls", "statement": "No sequence of select_model, option changes, set_sites, set_sites_uniform, set_values, set_boundary_conditions, interpolate and evaluate (failing or not) dereferences a null pointer or reads outside an array; whenever the handle holds a spline it is the spline of the kind, sites, values, derivatives and boundary conditions set by the last successful calls; a call that fails leaves the handle unchanged.", "quantifier": "for all sequences of calls and all their arguments", "why_tests_cant": "Sequences of calls are unbounded; the wrong ones mix a failed call with a later successful one, or dimensions and storage orders of different calls.", "anchors": ["source/core/interpolation/interpolation.cpp (47-166)", "source/core/interpolation/interpolation_generic.hpp: set_sites_1d, set_sites_uniform_1d, set_values_1d", "source/core/interpolation/cubic_spline/cubic_spline.cpp: set_boundary_conditions, interpolate, evaluate"]}
{"id": "C86", "title": "Elkan's k-means labels every sample with a nearest centre", "statement": "For every data set, initial centres, number of clusters, threads, blocks and iterations, and whatever the OpenMP runtime chooses, the labels k-means by Elkan's method gives back are in range and no centre given back is nearer to a sample than the centre of its label; in every iteration the labels are nearest to the centres before it, each count is the number of samples of the label and each new centre is their mean (or scaled sum of unit vectors), although most distances are skipped with bounds.", "quantifier": "for all data, centres, schedules, numbers of threads, kernels and numbers of iterations", "why_tests_cant": "The bounds are carried through all iterations; an invalid bound only shows for special geometry, and a lost block only with a schedule that no test can force.", "anchors": ["source/core/clustering/kmeans/kmeans_elkan.hpp: init_elkan, elkan_iteration, elkan_iteration_assign_block, compute_centre_half_distances", "source/core/clustering/kmeans/kmeans_kernels.cpp: elkan_reduction_kt, elkan_iteration_kernel_scalar, elkan_iteration_kt", "source/core/clustering/kmeans/kmeans_lloyd.hpp: scale_current_cluster_centres"]}
{"id": "C87", "title": "Lloyd's k-means labels every sample with a nearest centre", "statement": "For every data set in either storage order, initial centres, number of clusters, threads, blocks and iterations, every kernel, whatever the OpenMP runtime chooses and whatever the work arrays held before, each iteration of Lloyd's method labels every sample with a nearest centre, counts each label, stores the mean of its samples (or the scaled sum of unit vectors) as the new centre and the move in the other buffer; and however the run ends, the labels given back are nearest to the centres given back.", "quantifier": "for all data, centres, schedules, numbers of threads, kernels and numbers of iterations", "why_tests_cant": "Nine kernels, five ways to add up the centres, two storage orders and any schedule multiply; a dropped or doubled sample only shifts a mean a little.", "anchors": ["source/core/clustering/kmeans/kmeans_lloyd.hpp: lloyd_iteration, lloyd_iteration_update_centres, scale_current_cluster_centres", "source/core/clustering/kmeans/kmeans_kernels.cpp: lloyd_iteration_kernel_scalar and the vector kernels", "source/core/clustering/kmeans/kmeans.cpp: perform_kmeans, convergence_test"]}
{"id": "C88", "title": "Lloyd's k-means never increases the inertia and stops by itself", "statement": "In exact arithmetic, an iteration of Lloyd's method does not increase the sum of squared distances of the samples to the centres of their labels (for spherical clustering, does not decrease the sum of products), from any labels and centres; and for Euclidean distances a run in which more than max(2, k^n) iterations are allowed stops before the limit, with unchanged labels when the tolerance is zero, even when clusters become empty and their centres jump to the origin.", "quantifier": "for all data, centres, schedules, numbers of threads and kernels", "why_tests_cant": "Cycling among tied labellings or through empty clusters is a property of all runs of unbounded length.", "anchors": ["source/core/clustering/kmeans/kmeans_lloyd.hpp: lloyd_iteration, scale_current_cluster_centres", "source/core/clustering/kmeans/kmeans.cpp: perform_kmeans, convergence_test"]}
{"id": "C89", "title": "The labels of Lloyd's k-means do not depend on the kernel", "statement": "The kernel chosen for the processor (scalar or 2 to 32 lanes) does not change the labels of Lloyd's method.", "quantifier": "for all data, centres, schedules, kernels and numbers of iterations", "why_tests_cant": "Tests compare against references on random data where ties do not occur, and run on one processor.", "anchors": ["source/core/clustering/kmeans/kmeans_kernels.cpp: lloyd_iteration_kernel_scalar and the vector kernels", "source/core/clustering/kmeans/kmeans_lloyd.hpp: assign_lloyd_kernel"]}
{"id": "C90", "title": "MacQueen's k-means keeps its centres means, labels nearest centres and stops", "statement": "MacQueen's method labels every sample with a nearest initial centre, keeps every count and centre right after every move of a sample, gives back labels that are nearest to the centres it gives back, never increases the inertia and stops by itself.", "quantifier": "for all data, storage orders, initial centres, block sizes, tolerances and numbers of iterations", "why_tests_cant": "Wrong first labels and outdated norms are mostly repaired by later moves; only some data keep them to the end, and then the result still looks like a clustering.", "anchors": ["source/core/clustering/kmeans/kmeans_macqueen.hpp: init_macqueen, init_macqueen_block, macqueen_iteration", "source/core/clustering/kmeans/kmeans.cpp: perform_kmeans, convergence_test, compute_centre_shift"]}
{"id": "C91", "title": "Splitting leaves no empty cluster", "statement": "When k-means handles empty clusters it reports an error exactly when some cluster has no sample, or moves farthest samples until no cluster is empty, with every count and every centre right and the inertia no larger.", "quantifier": "for all data, labels, centres, storage orders and numbers of clusters, for Euclidean and spherical clustering", "why_tests_cant": "Clusters seldom become empty, several at a time even less, and a wrong centre is repaired by the next iteration unless the run ends there.", "anchors": ["source/core/clustering/kmeans/kmeans.cpp: handle_empty_clusters"]}
{"id": "C92", "title": "Runs with splitting give back nearest labels and full clusters", "statement": "A run of k-means that splits empty clusters gives back labels that are nearest to the centres it gives back, and every cluster has a sample.", "quantifier": "for all data, initial centres, numbers of threads and schedules, limits of iterations and tolerances, for Lloyd's, Elkan's and MacQueen's method", "why_tests_cant": "It needs a cluster that becomes empty late in a run, and the values left over from before the split to matter in the next iteration.", "anchors": ["source/core/clustering/kmeans/kmeans.cpp: perform_kmeans", "source/core/clustering/kmeans/kmeans.cpp: handle_empty_clusters"]}
{"id": "C93", "title": "Runs with splitting do not raise the inertia and stop", "statement": "In a run of Lloyd's method that splits empty clusters the inertia never grows from one iteration to the next, and the run stops by itself after finitely many iterations.", "quantifier": "for all data, initial centres, numbers of threads and schedules, limits of iterations and tolerances", "why_tests_cant": "A cycle of splits shows only with particular data and looks like slow convergence.", "anchors": ["source/core/clustering/kmeans/kmeans.cpp: perform_kmeans", "source/core/clustering/kmeans/kmeans.cpp: convergence_test"]}
{"id": "C94", "title": "Empty clusters are reported or absent", "statement": "With the error handling of empty clusters a run either reports the empty cluster or gives back clusters that all have samples; without handling it is the plain run.", "quantifier": "for all data, initial centres, numbers of threads and schedules, limits of iterations and tolerances, for Lloyd's and MacQueen's method", "why_tests_cant": "The cluster has to become empty in the labelling after the last iteration.", "anchors": ["source/core/clustering/kmeans/kmeans.cpp: perform_kmeans"]}
{"id": "C95", "title": "The dual gap bounds the distance to the minimum", "statement": "Whatever the coefficients, no allowed coefficients have an objective that is lower by more than the dual gap computed with the residual of the coefficients.", "quantifier": "for all data as preprocess_data leaves them, penalties, scalings, coefficients, with or without an intercept and with or without the restriction to coefficients that are not negative", "why_tests_cant": "Tests compare coefficients with a reference to a few digits; a gap that is too small shows only as a run that stops early.", "anchors": ["source/core/linear_model/linmod_nln_optim.cpp: stepchk_linreg_dualgap", "source/core/linear_model/linear_model.cpp: fit_linreg_coord"]}
{"id": "C96", "title": "The residual kept by coordinate descent is that of its coefficients", "statement": "Whenever the dual gap is measured, the residual that the step functions update is the responses minus the prediction of the coefficients.", "quantifier": "for all data as preprocess_data leaves them, penalties, scalings, options of the solver, starting points and numbers of passes", "why_tests_cant": "The residual is hidden user data, and it is right again after most steps.", "anchors": ["source/core/linear_model/linmod_nln_optim.cpp: stepfun_linreg_glmnet", "source/core/linear_model/linmod_nln_optim.cpp: stepfun_linreg_sklearn", "source/core/optimization/coord.hpp: coord_rcomm"]}
{"id": "C97", "title": "Coordinate descent never raises the objective", "statement": "Each new value of a coefficient minimises the objective along its coordinate among the allowed values, and no pass of the solver raises the objective.", "quantifier": "for all data as preprocess_data leaves them, penalties, scalings, options of the solver, starting points and numbers of passes", "why_tests_cant": "The rises are small or need columns of very different size; tests look at the end of the run.", "anchors": ["source/core/linear_model/linmod_nln_optim.cpp: stepfun_linreg_glmnet", "source/core/linear_model/linmod_nln_optim.cpp: stepfun_linreg_sklearn", "source/core/optimization/coord.hpp: coord_rcomm"]}
{"id": "C98", "title": "Success means within the tolerance of the minimum", "statement": "If the solver ends with success, no allowed coefficients have an objective lower by more than the optimality tolerance.", "quantifier": "for all data as preprocess_data leaves them, penalties, scalings, options of the solver, starting points and numbers of passes", "why_tests_cant": "The gap is wrong only when the last coefficient of the cycle has changed or a step was dropped.", "anchors": ["source/core/optimization/coord.hpp: coord", "source/core/linear_model/linmod_nln_optim.cpp: stepchk_linreg_dualgap"]}
{"id": "C99", "title": "The dual gap is zero exactly at the minimisers", "statement": "The dual gap of allowed coefficients with their residual is zero if and only if they minimise the objective; it is enough that no single coefficient can be improved.", "quantifier": "for all data as preprocess_data leaves them, penalties, scalings and allowed coefficients", "why_tests_cant": "A gap that is not zero at the minimum shows only as warnings, which fit_linreg_coord clears.", "anchors": ["source/core/linear_model/linmod_nln_optim.cpp: stepchk_linreg_dualgap", "source/core/linear_model/linear_model.cpp: fit_linreg_coord"]}
{"id": "C100", "title": "Coordinate descent ends and stays in range", "statement": "Every run of the solver ends, without undefined behaviour, after at most n evaluations for each iteration allowed, and asks the step function only for coordinates that exist.", "quantifier": "for all options, call-backs, user data, bounds, monitors and clocks", "why_tests_cant": "The skipping of coordinates makes the path of a run depend on the history of all steps.", "anchors": ["source/core/optimization/coord.hpp: coord_rcomm", "source/core/optimization/coord.hpp: coord"]}
{"id": "C101", "title": "No coordinate is left out for long", "statement": "While a coordinate is not evaluated at most max(skip max, threshold) + 1 cycles end, and the counters of the ledger stay in their ranges.", "quantifier": "for all options, call-backs, user data, bounds, monitors, clocks, coordinates and stretches of a run", "why_tests_cant": "Long runs with thousands of skips would be needed.", "anchors": ["source/core/optimization/coord.hpp: coord_rcomm", "source/core/optimization/coord.hpp: coord_slv"]}
{"id": "C102", "title": "Failures of the call-backs are reported", "statement": "A run in which a call-back has failed does not end with success, and a failure of the optimality check ends the run at once.", "quantifier": "for all options, call-backs, user data, bounds, monitors and clocks", "why_tests_cant": "The call-backs of the library never fail, so the path is taken only by those of others.", "anchors": ["source/core/optimization/coord.hpp: coord"]}
{"id": "C103", "title": "The iterates stay within the bounds", "statement": "From the first pass on all coordinates lie within their bounds, whatever the step function gives back.", "quantifier": "for all options, call-backs, user data, bounds with lower not above upper, monitors, clocks and numbers of passes", "why_tests_cant": "The step function is arbitrary.", "anchors": ["source/core/optimization/coord.hpp: bound_constr::proj", "source/core/optimization/coord.hpp: coord_rcomm"]}
{"id": "C104", "title": "The steps do not divide by zero", "statement": "The divisor of a step is not zero.", "quantifier": "for all data as preprocess_data leaves them, penalties and scalings", "why_tests_cant": "It needs a feature without variation together with a particular scaling and penalty.", "anchors": ["source/core/linear_model/linmod_nln_optim.cpp: stepfun_linreg_glmnet", "source/core/linear_model/linmod_nln_optim.cpp: stepfun_linreg_sklearn", "source/core/linear_model/linear_model.cpp: preprocess_data"]}
{"id": "C105", "title": "Sums along an axis add every entry once", "statement": "da_sum reads and writes only inside its arrays, and each result is the sum of the summands of the entries of its line, every entry once; the result does not depend on the storage order, the padding, the threads or the schedule, and the caller's array is unchanged beyond the results.", "quantifier": "for all matrices, storage orders, axes, leading dimensions, contents of the padding, numbers of threads and orders of the parallel iterations, thresholds of the recursion and summands", "why_tests_cant": "Blocks, remainders and thread counts multiply to far too many cases, and the blocked paths start at thousands of rows.", "anchors": ["source/core/basic_statistics/moment_statistics.cpp: recursive_sum", "source/core/basic_statistics/moment_statistics.cpp: recursive_sum_vector", "source/core/basic_statistics/moment_statistics.cpp: full_sum", "source/core/basic_statistics/moment_statistics.cpp: sum_axis_aligned", "source/core/basic_statistics/moment_statistics.cpp: sum_axis_misaligned", "source/core/basic_statistics/moment_statistics.cpp: da_sum"]}
{"id": "C106", "title": "Arrays of partial sums are freed once", "statement": "The arrays that sum_axis_misaligned allocates, one for each block of the outer dimension but the first, are used only while they are live and each is freed exactly once; there are never more blocks than threads.", "quantifier": "for all matrices, storage orders, axes, leading dimensions, contents of the padding, numbers of threads and orders of the parallel iterations", "why_tests_cant": "Leaks and late uses need many blocks and unusual schedules to show.", "anchors": ["source/core/basic_statistics/moment_statistics.cpp: sum_axis_misaligned"]}
{"id": "C107", "title": "Means, variances and moments follow their documented formulas", "statement": "da_mean, da_variance and da_moment give the documented values for each line, for every choice of the degrees of freedom; variances are never negative and vanish exactly for constant lines; bad arguments are reported before anything is written.", "quantifier": "for all matrices, storage orders, axes, leading dimensions, contents of the padding, numbers of threads and orders of the parallel iterations, degrees of freedom, exponents and centres", "why_tests_cant": "Tests compare a few matrices with a reference.", "anchors": ["source/core/basic_statistics/moment_statistics.cpp: mean", "source/core/basic_statistics/moment_statistics.cpp: variance", "source/core/basic_statistics/moment_statistics.cpp: moment", "source/core/basic_statistics/moment_statistics.cpp: power", "source/core/basic_statistics/moment_statistics.cpp: check_data"]}
{"id": "C108", "title": "Skewness and kurtosis follow their documented formulas", "statement": "Where the variance is not zero da_skewness and da_kurtosis give the documented ratios of central moments, and the kurtosis is at least the squared skewness minus 2; constant lines get 0 and -3.", "quantifier": "for all matrices, storage orders, axes, leading dimensions, contents of the padding, numbers of threads and orders of the parallel iterations", "why_tests_cant": "Tests compare a few matrices with a reference.", "anchors": ["source/core/basic_statistics/moment_statistics.cpp: skewness", "source/core/basic_statistics/moment_statistics.cpp: kurtosis"]}
{"id": "C109", "title": "The geometric mean is the root of the product", "statement": "da_geometric_mean refuses exactly the matrices with a negative entry and leaves its result alone then; otherwise each result is not negative and its power with the number of entries is the product of the entries of the line, also if there are zeros.", "quantifier": "for all matrices, storage orders, axes, leading dimensions, contents of the padding, numbers of threads and orders of the parallel iterations, and all functions exp and log with the usual laws", "why_tests_cant": "Tests compare a few matrices with a reference.", "anchors": ["source/core/basic_statistics/moment_statistics.cpp: is_positive", "source/core/basic_statistics/moment_statistics.cpp: log_sum", "source/core/basic_statistics/moment_statistics.cpp: geometric_mean"]}
{"id": "C110", "title": "The harmonic mean lies between the entries", "statement": "For entries that are not negative the harmonic mean of a line lies between its smallest and its largest entry.", "quantifier": "for all matrices, storage orders, axes, leading dimensions, contents of the padding, numbers of threads and orders of the parallel iterations", "why_tests_cant": "Data with zeros are treated by a branch of their own.", "anchors": ["source/core/basic_statistics/moment_statistics.cpp: inverse_sum", "source/core/basic_statistics/moment_statistics.cpp: harmonic_mean"]}
{"id": "C111", "title": "Standardization follows its documentation", "statement": "da_standardize shifts and scales every entry once as documented, with mode 1 the other way round, by the caller's values or by the means and deviations (about the supplied shifts if there are any) that it stores in arrays of zeros; a zero scale is not used, the padding is unchanged, and bad arguments are reported before anything is written.", "quantifier": "for all matrices, storage orders, axes, leading dimensions, contents of the padding, degrees of freedom, shifts and scales, numbers of threads and orders of the parallel iterations", "why_tests_cant": "Null, zero and given arrays, three axes, two orders and the degrees of freedom combine to many cases, of which tests try a few.", "anchors": ["source/core/basic_statistics/statistical_utilities.cpp: is_zero", "source/core/basic_statistics/statistical_utilities.cpp: standardize", "source/core/utilities/row_to_col_major.cpp: row_to_col_major"]}
{"id": "C112", "title": "Reversing a standardization restores the data", "statement": "A call of da_standardize with mode 1 and the arrays that a call with mode 0 left restores the data, provided that at least one of the arrays was given.", "quantifier": "for all matrices, storage orders, axes, leading dimensions, contents of the padding, degrees of freedom, shifts and scales, numbers of threads and orders of the parallel iterations", "why_tests_cant": "Constant lines leave zeros in the arrays, which the second call takes as a request to compute them.", "anchors": ["source/core/basic_statistics/statistical_utilities.cpp: standardize"]}
{"id": "C113", "title": "Covariance and correlation matrices follow their documentation", "statement": "A call of da_covariance_matrix or da_correlation_matrix that reports success has written the documented matrix, in both triangles: symmetric, with a quadratic form that is never negative, the correlations with ones on the diagonal; the padding is unchanged, and bad arguments are reported before anything is written.", "quantifier": "for all data matrices, storage orders, leading dimensions, contents of the padding, degrees of freedom, values of assume_centered, numbers of threads, block sizes, schedules and outcomes of the allocation of the temporary blocks", "why_tests_cant": "The product is cut into blocks only for many rows and several threads, and tests do not make allocations fail.", "anchors": ["source/core/basic_statistics/correlation_and_covariance.cpp: cov_corr_matrix", "source/core/basic_statistics/correlation_and_covariance.cpp: covariance_matrix", "source/core/basic_statistics/correlation_and_covariance.cpp: correlation_matrix", "source/core/utilities/da_syrk.hpp: da_syrk"]}
{"id": "C114", "title": "The blocked product equals the product", "statement": "da_syrk leaves alpha op(A) op(A)' + beta C in the chosen triangle and changes nothing else, however the rows are cut into blocks and the blocks are spread over the threads; if it reports an allocation failure, C is unchanged.", "quantifier": "for all matrices, storage orders, triangles, transpositions, sizes, leading dimensions, scalars, block sizes, numbers of threads and static assignments of blocks to threads", "why_tests_cant": "The temporary blocks, the last block of its own size and the first block of a thread, which alone uses beta, depend on the number of threads and the schedule.", "anchors": ["source/core/utilities/da_syrk.hpp: da_syrk"]}
{"id": "C115", "title": "The points of a Barnes-Hut cell are put into the order of their octants", "statement": "The partition in build_subtree stays inside the arrays and ends, permutes the points of the cell only, gives each octant an interval in which exactly the points of this octant are, and lists the octants that have points.", "quantifier": "for all numbers of dimensions, points, centres, cells and orders of the points before", "why_tests_cant": "The cycle swaps of equal or borderline points depend on the order of the points; a point put into a wrong octant only makes the forces a little worse.", "anchors": ["source/core/dimension_reduction/tsne/barnes_hut.cpp: BarnesHutTree::build_subtree"]}
{"id": "C116", "title": "The Barnes-Hut tree holds every point once with the right means", "statement": "build succeeds, the order of the points is a permutation, the nodes form a tree whose nodes have the number, first position and mean of their points in cubes of half the width of the parent's, and leaves have at most eight points or are at the greatest depth.", "quantifier": "for all points, numbers of dimensions from one to three, reservations of slots, orders of tasks, distributions of the parallel loops and contents of the memory from the call before", "why_tests_cant": "Whether the node arena is large enough for every set of points, for example many equal ones, cannot be tried out.", "anchors": ["source/core/dimension_reduction/tsne/barnes_hut.cpp: BarnesHutTree::build", "source/core/dimension_reduction/tsne/barnes_hut.cpp: BarnesHutTree::build_subtree", "source/core/dimension_reduction/tsne/barnes_hut.cpp: BarnesHutTree::make_leaf", "source/core/dimension_reduction/tsne/barnes_hut.cpp: BarnesHutTree::compute_bbox", "source/core/dimension_reduction/tsne/barnes_hut.cpp: BarnesHutTree::initialize_memory"]}
{"id": "C117", "title": "The Barnes-Hut forces count every other point once", "statement": "For each point the traversal divides all points into bodies, each a single point or a cell without this point whose width is at most theta times the distance of its mean; force and normalisation are the sums over these bodies without the point itself; with theta = 0 they are exact; the stack is never too small.", "quantifier": "for all points, thetas, leaf sizes, trees from build, orders of the batches and earlier contents of the output", "why_tests_cant": "A point that is counted twice or left out changes the forces by less than the approximation itself.", "anchors": ["source/core/dimension_reduction/tsne/barnes_hut.cpp: BarnesHutTree::compute_repulsive_batch4", "source/core/dimension_reduction/tsne/tsne.cpp: compute_repulsive_forces"]}
{"id": "C118", "title": "Concurrent reservations give each tree slot to one node", "statement": "However the tasks interleave their accesses to num_nodes, the blocks given to nodes are disjoint, inside the arena and, at the end, below num_nodes.", "quantifier": "for all capacities and all sequences of atomic accesses to num_nodes", "why_tests_cant": "The clash needs a full arena and a particular order of the accesses of four tasks.", "anchors": ["source/core/dimension_reduction/tsne/barnes_hut.cpp: BarnesHutTree::build_subtree"]}
{"id": "C119", "title": "The neighbour lists of t-SNE hold the right samples and squared distances", "statement": "compute_distances_exact lists for each sample all others once, ascending, with their distances from the upper triangle; compute_distances_knn keeps, in order, the first k of the k + 1 neighbours that are not the sample itself, with squared distances. Both stay inside their arrays.", "quantifier": "for all numbers of samples and neighbours, distances and distinct neighbour indices, also when a sample is not among its own neighbours", "why_tests_cant": "An entry at a shifted position still gives an embedding that looks right; copies of samples that push the sample out of its own list are rare.", "anchors": ["source/core/dimension_reduction/tsne/tsne.cpp: compute_distances_exact", "source/core/dimension_reduction/tsne/tsne.cpp: compute_distances_knn"]}
{"id": "C120", "title": "The search for the bandwidth brackets the perplexity and gives a probability distribution", "statement": "compute_row_probabilities writes non-negative numbers that sum to 1 and are proportional to exp(-b d_j), with b a bandwidth that meets the target entropy or an end of a bracket of the target that shrinks by half at each trial; or equal numbers when all terms vanish. With exact exp and log every bracket holds a bandwidth that gives the target.", "quantifier": "for all distances, targets, tolerances, numbers of trials, functions exp (non-negative) and log, and rows anywhere in the arrays", "why_tests_cant": "A search that drops an end of the bracket or moves the wrong way only ends at a somewhat different perplexity.", "anchors": ["source/core/dimension_reduction/tsne/tsne.cpp: compute_row_probabilities"]}
{"id": "C121", "title": "The affinities are a symmetric distribution in compressed rows", "statement": "compute_affinities after the distances gives the matrix (p(j|i) + p(i|j)) / (2 n) in compressed rows: row pointers that fit, ascending columns, exactly the non-zero entries; the matrix is symmetric with zero diagonal and non-negative entries that sum to 1.", "quantifier": "for all neighbour lists, also with asymmetric neighbourhoods and repeated indices, all orders of the parallel loop and every sorting function", "why_tests_cant": "Merging of equal columns and one-sided neighbours depends on the data; a lost or doubled contribution is hidden by the normalisation.", "anchors": ["source/core/dimension_reduction/tsne/tsne.cpp: symmetrize_to_csr", "source/core/dimension_reduction/tsne/tsne.cpp: compute_affinities"]}
{"id": "C122", "title": "All ways of computing the t-SNE gradient agree", "statement": "The vector kernels of the attractive force give what the plain loop gives; the exact gradient is 4 sum_j (ex p_ij - q_ij / Z) q_ij (y_i - y_j); the gradient from attraction and repulsion is the same when the repulsion is exact.", "quantifier": "for all matrices, embeddings, dimensions, row lengths, register widths, exaggerations and orders of the parallel loops", "why_tests_cant": "Kernels are chosen by hardware and dimension; remainders of the unrolled loops occur for some row lengths only.", "anchors": ["source/core/dimension_reduction/tsne/tsne_kernels.cpp: attractive_forces_scalar_impl", "source/core/dimension_reduction/tsne/tsne_kernels.cpp: attractive_forces_kt", "source/core/dimension_reduction/tsne/tsne_kernels.cpp: attractive_forces_multi_d2", "source/core/dimension_reduction/tsne/tsne.cpp: compute_attractive_forces", "source/core/dimension_reduction/tsne/tsne.cpp: gradient_descent_impl"]}
{"id": "C123", "title": "The t-SNE gradient is the derivative of the Kullback-Leibler divergence", "statement": "compute_kl_divergence gives sum p log(p/q) with lower bounds on p and q, for a given or a computed normalisation; the exact gradient without exaggeration is the partial derivative of the divergence in every coordinate.", "quantifier": "for all embeddings of at least two points and all symmetric affinities that sum to 1", "why_tests_cant": "Finite differences check single points only and to a few digits.", "anchors": ["source/core/dimension_reduction/tsne/tsne.cpp: compute_kl_divergence", "source/core/dimension_reduction/tsne/tsne.cpp: gradient_descent_impl"]}
{"id": "C124", "title": "The update of the embedding is the documented step for each entry", "statement": "update_embedding changes each gain by + 0.2 or * 0.8 according to the signs, keeps it at 0.01 or more, and moves the entry by momentum times last change minus rate times gain times gradient, each entry once.", "quantifier": "for all momenta, rates, gradients, gains and orders of the parallel loop", "why_tests_cant": "The descent corrects itself: with wrong gains it still converges.", "anchors": ["source/core/dimension_reduction/tsne/tsne.cpp: update_embedding"]}
{"id": "C125", "title": "The inverted-file index holds exactly the added rows, in the right lists", "statement": "After any successful sequence of option, set_training_data, train and add calls on a handle, the index holds exactly the rows added since the training, each in the list of the first of its nearest centroids, with its squared norm for the Euclidean metric, numbered from 0 in the order of addition.", "quantifier": "for all sequences of calls, data, storage orders, metrics, block sizes, clusterings and orders of the parallel loops", "why_tests_cant": "Sequences of calls are unbounded, and a row in a wrong list only makes an approximate result a little worse.", "anchors": ["source/core/approximate_neighbors/approximate_neighbors.cpp: set_training_data", "source/core/approximate_neighbors/approximate_neighbors.cpp: train_ivfflat", "source/core/approximate_neighbors/approximate_neighbors.cpp: add", "source/core/approximate_neighbors/approximate_neighbors.cpp: add_ivfflat"]}
{"id": "C126", "title": "A search of the index returns the nearest rows of the nearest lists", "statement": "For every query there are n_probe nearest centroids such that the result are the k nearest among the rows in their lists in ascending order, filled up with -1 and infinity. When all lists are probed the result are the k nearest of all rows. The search stays inside its arrays.", "quantifier": "for all indexes, queries, k, n_probe, block sizes, orders of the blocks and contents left in the work arrays", "why_tests_cant": "Results are approximate, so a lost candidate looks like a point outside the probed lists; block boundaries depend on sizes and the number of threads.", "anchors": ["source/core/approximate_neighbors/approximate_neighbors.cpp: ivf_search", "source/core/approximate_neighbors/approximate_neighbors.cpp: ivfflat_search_query_parallel", "source/core/approximate_neighbors/approximate_neighbors.cpp: update_heaps_from_list_blk", "source/core/nearest_neighbors/nearest_neighbors_utils.hpp: sorted_n_dist_n_ind"]}
{"id": "C127", "title": "The block sizes of the search are positive and fit the cache budget", "statement": "ivf_search picks at least one and at most max(1, n_queries/threads) queries per block, and up to the largest list size vectors per block (at least one if that is not 0), with q l + (q + l) n_features within the budget. The block size of add is positive and within its bounds.", "quantifier": "for all numbers of features, queries, threads and list sizes, and 32- and 64-bit integers", "why_tests_cant": "The arithmetic only goes wrong for very many features.", "anchors": ["source/core/approximate_neighbors/approximate_neighbors.cpp: ivf_search", "source/core/approximate_neighbors/approximate_neighbors.cpp: add_ivfflat"]}
{"id": "C128", "title": "No sequence of calls on an index handle goes outside its arrays", "statement": "No sequence of option, set_training_data, train and add calls with valid arrays reads or writes outside an array or divides by zero, also when calls in between fail.", "quantifier": "for all sequences of calls, data, clusterings and orders of the parallel loops", "why_tests_cant": "It takes particular sequences, with a call that fails or an option that changes in between.", "anchors": ["source/core/approximate_neighbors/approximate_neighbors.cpp: train", "source/core/approximate_neighbors/approximate_neighbors.cpp: read_training_options", "source/core/approximate_neighbors/approximate_neighbors.cpp: check_options_update", "source/core/approximate_neighbors/approximate_neighbors.cpp: add"]}
{"id": "C129", "title": "Two-class logistic regression: documented cost and its gradient", "statement": "The objective call-back for two classes returns the documented negative log-likelihood plus penalty, and the gradient call-back returns its gradient, both when it computes the linear combinations itself and when it reuses those of the objective.", "quantifier": "for all data, labels, coefficients, storage orders, penalties and contents left in the work arrays", "why_tests_cant": "A wrong term shows as a slightly different optimum; tests compare with fixed data sets.", "anchors": ["source/core/linear_model/linmod_nln_optim.cpp: objfun_logistic_two_class", "source/core/linear_model/linmod_nln_optim.cpp: objgrd_logistic_two_class", "source/core/linear_model/linmod_nln_optim.cpp: eval_feature_matrix", "source/core/linear_model/linmod_nln_optim.cpp: regfun", "source/core/linear_model/linmod_nln_optim.cpp: reggrd"]}
{"id": "C130", "title": "Logistic regression with a reference class: documented cost and its gradient", "statement": "The objective call-back returns the negative log-likelihood of the documented probabilities plus the penalty on the coefficients of the features of all classes, and the gradient call-back returns its gradient.", "quantifier": "for all data, labels, coefficients, storage orders, penalties and contents left in the work arrays, and any number of classes", "why_tests_cant": "The tests of the penalty have two classes or compare with values produced by the code.", "anchors": ["source/core/linear_model/linmod_nln_optim.cpp: objfun_logistic_rsc", "source/core/linear_model/linmod_nln_optim.cpp: objgrd_logistic_rsc"]}
{"id": "C131", "title": "Logistic regression with a set of coefficients per class: documented cost and its gradient", "statement": "The objective call-back returns the negative log-likelihood of the soft-max probabilities plus the penalty on the coefficients of the features of all classes, and the gradient call-back returns its gradient, both when it computes the linear combinations itself and when it reuses those of the objective.", "quantifier": "for all data, labels, coefficients, storage orders, penalties and contents left in the work arrays, and any number of classes", "why_tests_cant": "The solver always reuses the linear combinations, so the other branch is never run.", "anchors": ["source/core/linear_model/linmod_nln_optim.cpp: objfun_logistic_ssc", "source/core/linear_model/linmod_nln_optim.cpp: objgrd_logistic_ssc", "source/core/optimization/callbacks.hpp: objgrd_t"]}
{"id": "C132", "title": "A logistic model predicts the most probable class", "statement": "evaluate_model returns for every sample a class whose probability in the model is largest, and the score is the fraction of samples with the observed class.", "quantifier": "for all data, coefficients, storage orders and numbers of classes", "why_tests_cant": "Samples all of whose scores are negative are rare in data sets with an intercept.", "anchors": ["source/core/linear_model/linear_model.cpp: evaluate_model"]}
{"id": "C133", "title": "The logistic objectives take no exponential of a positive number and no logarithm of a number below one", "statement": "With functions that agree with exp for arguments at most 0 and with log for arguments at least 1 and are arbitrary elsewhere, the objective call-backs return the same value.", "quantifier": "for all data, labels, coefficients, storage orders, penalties and contents left in the work arrays, and any number of classes", "why_tests_cant": "Overflow needs coefficients far from those of the tests.", "anchors": ["source/core/linear_model/linmod_nln_optim.cpp: objfun_logistic_two_class", "source/core/linear_model/linmod_nln_optim.cpp: objfun_logistic_rsc", "source/core/linear_model/linmod_nln_optim.cpp: objfun_logistic_ssc"]}
{"id": "C134", "title": "Least squares for L-BFGS-B: documented cost and its gradient", "statement": "objfun_mse returns the documented cost, half the mean squared error plus the penalty without the intercept, and objgrd_mse returns its gradient.", "quantifier": "for all data, labels, coefficients, storage orders, penalties and contents left in the work arrays", "why_tests_cant": "A wrong term shows as a slightly different optimum.", "anchors": ["source/core/linear_model/linmod_nln_optim.cpp: objfun_mse", "source/core/linear_model/linmod_nln_optim.cpp: loss_mse", "source/core/linear_model/linmod_nln_optim.cpp: objgrd_mse"]}
{"id": "C135", "title": "Warm starts are scaled by the inverse of the map that reverts the scaling", "statement": "scale_warmstart and revert_scaling are inverse to each other in both directions, with and without an intercept.", "quantifier": "for all numbers of features, shifts, coefficients and scales that are not zero", "why_tests_cant": "A wrong starting point is corrected by the solver and shows only as more iterations.", "anchors": ["source/core/linear_model/linear_model.cpp: scale_warmstart", "source/core/linear_model/linear_model.cpp: revert_scaling"]}
{"id": "C136", "title": "Least squares coefficients do not depend on the scaling of the data", "statement": "Coefficients that minimise the squares of the scaled problem, after revert_scaling, minimise the squares of the problem of the user, for every kind of scaling, with and without an intercept.", "quantifier": "for all data, numbers of samples and features and kinds of scaling", "why_tests_cant": "Tests use data without constant features or responses.", "anchors": ["source/core/linear_model/linear_model.cpp: preprocess_data", "source/core/linear_model/linear_model.cpp: revert_scaling", "source/core/basic_statistics/statistical_utilities.cpp: standardize"]}
{"id": "C137", "title": "Ridge regression solves the same problem with every solver", "statement": "With alpha = 0, whatever the solver, the coefficients minimise half the squares plus half lambda times the squares of the coefficients, or with standardize the same problem in units of the deviations; the penalties passed to the solvers are rescaled accordingly.", "quantifier": "for all data, penalties, solvers and kinds of scaling", "why_tests_cant": "Tests compare some solvers on a few data sets.", "anchors": ["source/core/linear_model/linear_model.cpp: fit_impl (lines 976-1004)", "source/core/linear_model/linear_model.cpp: preprocess_data", "source/core/linear_model/linear_model.cpp: revert_scaling"]}
{"id": "C138", "title": "The elastic net minimises the documented cost function", "statement": "The coefficients minimise the documented mean of squares with the l1 and l2 penalties for data that are not scaled, and with standardize or scale only ridge regression is the limit of the elastic net.", "quantifier": "for all data, penalties and kinds of scaling", "why_tests_cant": "The tests compare with values of other packages for the same conventions.", "anchors": ["source/core/linear_model/linear_model.cpp: fit_impl (lines 976-1004)", "doc/Algorithms/linear_models/linear_models.rst: Mean square error", "doc/Algorithms/linear_models/linear_models.rst: Data scaling and elastic-net regression"]}
{"id": "C139", "title": "Cholesky and conjugate gradients solve the normal equations", "statement": "A solution of the system that setup_xtx_xty sets up gives coefficients that minimise half the squares with the penalty, with the intercept not penalised; with fewer samples than coefficients the dual system gives the minimiser, and without a penalty the exact fit of least norm.", "quantifier": "for all matrices, storage orders, leading dimensions, penalties and previous contents of the arrays", "why_tests_cant": "Tests check a few systems.", "anchors": ["source/core/linear_model/linear_model.cpp: setup_xtx_xty", "source/core/linear_model/linear_model.cpp: fit_linreg_cholesky", "source/core/linear_model/linear_model.cpp: fit_linreg_cg"]}
{"id": "C140", "title": "The singular value solver returns the least squares coefficients of least norm", "statement": "From any singular value decomposition fit_linreg_svd computes the ridge coefficients, and without a penalty those of least norm that minimise the squares when all singular values are zero or above the limit relative to the largest.", "quantifier": "for all matrices, decompositions, responses, penalties and precisions", "why_tests_cant": "The comparison goes wrong for largest singular values below 1 or small ones beside large ones, which tests do not have.", "anchors": ["source/core/linear_model/linear_model.cpp: fit_linreg_svd"]}
{"id": "C141", "title": "The copy of the data holds the matrix of the user", "statement": "prep_matrix_x puts entry (i, j) of the matrix where the increments, and where BLAS and LAPACK with the new leading dimension and order, look for it, and writes no cell outside the array.", "quantifier": "for all solvers, storage orders, sizes and leading dimensions", "why_tests_cant": "Tests use few leading dimensions.", "anchors": ["source/core/linear_model/linear_model.cpp: prep_matrix_x", "source/core/linear_model/linear_model.cpp: requires_column_major", "source/core/linear_model/linear_model.cpp: requires_transpose"]}
{"id": "C142", "title": "The packed loops compute the documented distances", "statement": "The squared Euclidean and the Manhattan distance of every pair of samples come out as the documented sums, the rest of the result array is unchanged, and the packing stays within its buffers.", "quantifier": "for all matrices, storage orders, leading dimensions, block sizes, orders in which threads take the blocks and previous contents of the buffers, with and without a second matrix", "why_tests_cant": "Tests use small matrices; the slices over the features, the blocks and their remainders combine in many ways.", "anchors": ["source/core/metrics/partitioning_infrastructure.hpp: LoopFive_packed", "source/core/metrics/metrics_kernels.hpp", "doc/Algorithms/metrics/metrics.rst: Squared Euclidean distance"]}
{"id": "C143", "title": "Euclidean and Minkowski distances are as documented", "statement": "The Euclidean distances are the roots of the sums of squares and the Minkowski distances the documented expression for every exponent that is accepted, including 1 and 2 which take other ways.", "quantifier": "for all matrices, exponents, storage orders, leading dimensions, block sizes, schedules and buffer contents", "why_tests_cant": "Tests use a few exponents and sizes.", "anchors": ["source/core/metrics/euclidean_distance.cpp", "source/core/metrics/minkowski_distance.cpp", "doc/Algorithms/metrics/metrics.rst: Minkowski distance"]}
{"id": "C144", "title": "Cosine distances are as documented", "statement": "The cosine distance of every pair of samples is one minus the inner product divided by the product of the norms.", "quantifier": "for all matrices without negligible norms, storage orders, leading dimensions, schedules and buffer contents", "why_tests_cant": "The norms are taken from the wrong samples only when the second matrix has more than 1024 samples.", "anchors": ["source/core/metrics/cosine_distance.cpp: CosinePostOp", "source/core/metrics/partitioning_infrastructure.hpp: LoopFive_packed", "doc/Algorithms/metrics/metrics.rst: Cosine distance"]}
{"id": "C145", "title": "Distances by matrix multiplication are the documented distances", "statement": "euclidean_gemm gives the Euclidean and the squared Euclidean distances, for one matrix all of the symmetric result with a zero diagonal; with norms that the caller supplies or omits euclidean_gemm_distance adds exactly those; the inner products are the documented sums.", "quantifier": "for all matrices, storage orders, leading dimensions and modes of the norms", "why_tests_cant": "Tests use few shapes; there is separate code for each order and mode.", "anchors": ["source/core/metrics/euclidean_gemm_distance.cpp", "source/core/metrics/inner_product_distance.cpp"]}
{"id": "C146", "title": "Pairwise distances are computed exactly for valid arguments", "statement": "A call is accepted exactly if there is at least one sample and one feature, the arrays are there, all leading dimensions are large enough and a Minkowski exponent is positive; each error code tells what is wrong.", "quantifier": "for all arguments", "why_tests_cant": "Tests try some wrong arguments one at a time.", "anchors": ["source/core/metrics/pairwise_distances.cpp: pairwise_distance_error_check_kernel"]}
{"id": "C147", "title": "Linear, polynomial and sigmoid kernels are as documented", "statement": "The linear, polynomial and sigmoid kernel of every pair of samples come out as the documented expressions, with and without a second matrix, and the rest of the result array is unchanged.", "quantifier": "for all matrices, parameters, storage orders, leading dimensions, numbers of threads, orders in which threads take the blocks and lengths of the vector registers", "why_tests_cant": "Tests use at most a handful of samples, so that the matrix is never divided into blocks.", "anchors": ["source/core/kernel_functions/kernel_functions.cpp: kernel_setup", "source/core/kernel_functions/kernel_functions_simd.cpp: pow_kt, tanh_kt", "doc/Algorithms/kernel_functions/kernel_functions.rst: Common Kernel Functions"]}
{"id": "C148", "title": "The RBF kernel is as documented", "statement": "The RBF kernel of every pair of samples comes out as exp(-gamma |x - y|^2), with and without a second matrix, and the rest of the result array is unchanged; so all entries are in (0, 1], and for one matrix the result is symmetric with ones on the diagonal.", "quantifier": "for all matrices, gamma, storage orders, leading dimensions, numbers of threads, orders in which threads take the blocks and lengths of the vector registers", "why_tests_cant": "Tests use at most a handful of samples, so that the matrix is never divided into blocks.", "anchors": ["source/core/kernel_functions/kernel_functions.cpp: rbf_kernel_internal", "source/core/kernel_functions/kernel_functions_simd.cpp: exp_kt", "doc/Algorithms/kernel_functions/kernel_functions.rst: Common Kernel Functions"]}
{"id": "C149", "title": "Kernel functions accept exactly the valid arguments", "statement": "A call is accepted exactly if there is at least one sample and one feature, the arrays are there, all leading dimensions are large enough, gamma is not negative and the degree is at least 1; invalid input is reported exactly if only the parameters are wrong.", "quantifier": "for all arguments", "why_tests_cant": "Tests try some wrong arguments one at a time.", "anchors": ["source/core/kernel_functions/kernel_functions.cpp: check_input"]}
{"id": "C150", "title": "The blocked symmetric product is the symmetric product", "statement": "da_syrk leaves the chosen triangle of alpha op(A) op(A)^T + beta C in C and changes nothing else, whether or not it divides the work into blocks.", "quantifier": "for all matrices, sizes, storage orders, triangles, transpositions, factors, leading dimensions, thread counts, forced block sizes and runs of the parallel loop", "why_tests_cant": "Which thread gets which blocks varies; the private buffers and factors matter only for particular numbers of blocks and threads.", "anchors": ["source/core/utilities/da_syrk.hpp: da_syrk", "source/core/utilities/da_utils.cpp: tall_skinny_blocking_scheme"]}
{"id": "C151", "title": "The blocks of the QR factorisation are at least as high as wide", "statement": "da_qr divides the rows into blocks that cover them and have at least as many rows as there are columns; the reflectors of the blocks fit into tau without overlap and the triangle of a block is copied from its own rows.", "quantifier": "for all numbers of rows, columns and threads with at least as many rows as columns", "why_tests_cant": "It fails only for more than 1024 columns and few rows per column, where the memory behind tau is overwritten.", "anchors": ["source/core/utilities/da_qr.hpp: da_qr", "source/core/utilities/da_utils.cpp: tall_skinny_blocking_scheme"]}
{"id": "C152", "title": "The blocked QR factorisation is a QR factorisation", "statement": "The triangle that da_qr returns is the R of a factorisation A = QR with orthonormal columns of Q, and da_qr_apply replaces any matrix C by QC with the same Q, changing nothing else.", "quantifier": "for all matrices whose blocks are at least as high as wide, thread counts, forced block sizes, orders in which the blocks are done and previous contents of the arrays", "why_tests_cant": "Tests check a few shapes on one machine; the stacking of the triangles and the offsets into tau and R_blocked depend on the number of blocks.", "anchors": ["source/core/utilities/da_qr.hpp: da_qr, da_qr_apply"]}
{"id": "C153", "title": "Class probabilities are the shares of the neighbours", "statement": "predict_proba with the k nearest neighbours gives, for each query and class, the share of that class in the total weight of the neighbours, at the documented position of either storage order; the probabilities of a query are not negative and add up to 1, and nothing else is written.", "quantifier": "for all training labels, numbers of queries and neighbours, weights, storage orders and previous contents of the array", "why_tests_cant": "Tests compare a few small problems with stored results; labels are arbitrary integers and the positions depend on the number of distinct ones.", "anchors": ["source/core/nearest_neighbors/nearest_neighbors.cpp: available_classes, predict_proba, predict_proba_compute_knn, get_weights"]}
{"id": "C154", "title": "A nearer neighbour never has less weight", "statement": "With weights = distance, of two neighbours the one that is not farther away has at least the weight of the other.", "quantifier": "for all pairs of distances", "why_tests_cant": "Needs a query that coincides with a training sample while another lies nearer than 1.", "anchors": ["source/core/nearest_neighbors/nearest_neighbors.cpp: get_weights"]}
{"id": "C155", "title": "Queries without neighbours get the outlier label", "statement": "With outlier handling = manual, the row of a query without neighbours has 1 at the class of the outlier label and 0 elsewhere (or 0 everywhere when the label is no class), the other rows are not affected, nothing outside of the array is written, and the predicted label of such a query is the outlier label.", "quantifier": "for all training labels, outlier labels and sets of queries without neighbours", "why_tests_cant": "Tests use labels 0, 1, 2, ..., where the value of a label is its position.", "anchors": ["source/core/nearest_neighbors/nearest_neighbors.cpp: predict_proba_compute_rnn, predict"]}
{"id": "C156", "title": "Predictions go by the labels and options in force", "statement": "Whatever has been called before, a prediction uses the classes, the most frequent label and the position of the outlier label that belong to the present labels and options.", "quantifier": "for all sequences of set_labels, set_data, changes of options and predictions", "why_tests_cant": "Tests hardly use a handle again with other labels.", "anchors": ["source/core/nearest_neighbors/nearest_neighbors.cpp: set_labels, set_data, set_params, check_options_update, available_classes, predict_proba_compute_rnn"]}
{"id": "C157", "title": "The predicted label has the most votes", "statement": "predict gives each query the label of greatest total weight among its neighbours and the smallest such label in a tie; with outlier handling = most frequent a query without neighbours gets the smallest of the most frequent training labels, and with none the call fails exactly when there is such a query.", "quantifier": "for all training labels, neighbours and weights", "why_tests_cant": "Ties and arbitrary labels are not covered by examples.", "anchors": ["source/core/nearest_neighbors/nearest_neighbors.cpp: predict, most_frequent_element, predict_proba_compute_rnn"]}
{"id": "C158", "title": "The predicted target is the weighted mean", "statement": "The target predicted from the k nearest neighbours, or with distance weights from the neighbours in a radius, is the weighted mean of their targets and lies between the least and the greatest of them; queries without neighbours get the outlier target or the mean of all targets.", "quantifier": "for all targets, neighbours, distances and numbers of queries", "why_tests_cant": "Examples only.", "anchors": ["source/core/nearest_neighbors/nearest_neighbors.cpp: predict_targets_knn, predict_targets_rnn"]}
{"id": "C159", "title": "The buffer for the targets in a radius is large enough", "statement": "With uniform weights predict_targets_rnn gives each query the mean of the targets of its neighbours and writes within its buffers.", "quantifier": "for all numbers of neighbours of the queries", "why_tests_cant": "The overflow needs the last query to have more neighbours than every other, and small overflows of a heap block are seldom noticed.", "anchors": ["source/core/nearest_neighbors/nearest_neighbors.cpp: predict_targets_rnn, radius_neighbors_compute"]}
{"id": "C160", "title": "The kernel matrix is centred", "statement": "compute turns the upper triangle of the kernel matrix k into that of (I - 1/n) k (I - 1/n), whose rows add up to 0, in either storage order, and transform centres the kernel between new and training samples by the means of the training samples.", "quantifier": "for all symmetric kernel matrices, numbers of samples and storage orders", "why_tests_cant": "Tests compare a few data sets with stored results.", "anchors": ["source/core/factorization/kernel_pca/kernel_pca.cpp: compute, transform"]}
{"id": "C161", "title": "The components are the leading eigenpairs", "statement": "With the dense solver the eigenvalues kept are nonnegative and descending, component j is an eigenvector of the centred kernel matrix for the j-th greatest eigenvalue with its sign fixed, negligible eigenvalues are 0, the number of components is the one documented, and compute fails exactly when an eigenvalue asked for is negative beyond the tolerance.", "quantifier": "for all kernel matrices, options, storage orders and tolerances", "why_tests_cant": "Needs kernel matrices of every rank and signature.", "anchors": ["source/core/factorization/kernel_pca/kernel_pca.cpp: compute", "source/core/factorization/kernel_pca/kernel_pca.hpp: sign_normalize_columns, clamp_near_zero_eigenvalues"]}
{"id": "C162", "title": "Transforming the training samples gives the scores", "statement": "transform gives the projection of the centred kernel onto the components divided by the square root of the eigenvalue (0 when that is 0), writes nothing else, and for the training samples agrees with the scores.", "quantifier": "for all kernel matrices, options, storage orders, leading dimensions and new samples", "why_tests_cant": "Tests compare a few data sets up to a tolerance.", "anchors": ["source/core/factorization/kernel_pca/kernel_pca.cpp: transform, get_result"]}
{"id": "C163", "title": "The inverse transformation belongs to the model", "statement": "After a successful compute the inverse transformation is available exactly when this compute has fitted it.", "quantifier": "for all sequences of set_data and compute with any options", "why_tests_cant": "Tests hardly compute twice with other options.", "anchors": ["source/core/factorization/kernel_pca/kernel_pca.cpp: compute, inverse_transform, get_result"]}
{"id": "C164", "title": "The eigenvalues fit the array of the user", "statement": "The query for the eigenvalues writes no more entries than the array of the user has.", "quantifier": "for all sequences of set_data and compute, successful or not, and all lengths of the array", "why_tests_cant": "Needs a query after a compute that has failed on a handle that had a model.", "anchors": ["source/core/factorization/kernel_pca/kernel_pca.cpp: compute, get_result"]}
{"id": "C165", "title": "The search for the first zero eigenvalue is well defined", "statement": "std::lower_bound is applied to a vector in which the positive eigenvalues come first.", "quantifier": "for all sequences of set_data and compute, with either solver", "why_tests_cant": "Needs the randomized solver on a handle whose last model had more components.", "anchors": ["source/core/factorization/kernel_pca/kernel_pca.cpp: compute"]}
{"id": "C166", "title": "All solvers decompose the same matrix", "statement": "The copy of the data that the SVD solvers decompose is the standardised data (centred, or centred and scaled with constant columns left unscaled), the upper triangle that syevd decomposes is that of its transpose times itself, and the total variance is its sum of squares over the divisor whatever the solver.", "quantifier": "for all data, sizes, leading dimensions, methods and solvers", "why_tests_cant": "Tests compare the solvers on a few data sets up to a tolerance.", "anchors": ["source/core/factorization/pca/pca.cpp: compute"]}
{"id": "C167", "title": "transform gives the coordinates, and the scores for the training data", "statement": "transform gives the projections of the standardised samples on the components, scaled when whitening, in either storage order, and for the training data it agrees with the scores (but for whitened components with singular value 0).", "quantifier": "for all models, samples, storage orders and leading dimensions", "why_tests_cant": "Tests compare a few data sets up to a tolerance.", "anchors": ["source/core/factorization/pca/pca.cpp: transform, get_result"]}
{"id": "C168", "title": "inverse_transform uses the means of the model", "statement": "inverse_transform gives the combination of the components with the given coordinates, shifted and scaled by the means and deviations of the model, and leaves the model as it is.", "quantifier": "for all models, coordinates, storage orders and leading dimensions", "why_tests_cant": "Goes wrong only when the means of all columns are exactly 0.", "anchors": ["source/core/factorization/pca/pca.cpp: inverse_transform", "source/core/basic_statistics/statistical_utilities.cpp: standardize"]}
{"id": "C169", "title": "Transforming there and back gives the samples", "statement": "With an orthonormal basis of components, inverse_transform after transform gives the samples (when whitening, if no singular value is 0).", "quantifier": "for all models with as many components as features, and all samples", "why_tests_cant": "Goes wrong only when the means of all columns are exactly 0.", "anchors": ["source/core/factorization/pca/pca.cpp: transform, inverse_transform"]}
{"id": "C170", "title": "One divisor for all variances", "statement": "After a successful compute the variances of the columns have been divided by what the total variance and the whitening are divided by.", "quantifier": "for all sequences of set_data and compute with any options, more than one sample", "why_tests_cant": "Tests hardly compute twice with other options.", "anchors": ["source/core/factorization/pca/pca.cpp: compute"]}
{"id": "C171", "title": "compute stays within its memory", "statement": "compute reads from no null pointer and writes into no empty vector.", "quantifier": "for all sequences of set_data, accepted or refused, and compute with any options", "why_tests_cant": "Needs two computes with different solvers, or a compute after a refused set_data.", "anchors": ["source/core/factorization/pca/pca.cpp: init, compute", "source/core/utilities/da_qr.hpp: da_qr_apply"]}
{"id": "C172", "title": "The scores are read within U", "statement": "The query for the scores reads only entries that U has.", "quantifier": "for all sequences of set_data and compute, successful or refused", "why_tests_cant": "Needs a query after a compute that has been refused on a handle that had a model.", "anchors": ["source/core/factorization/pca/pca.cpp: compute, get_result"]}
{"id": "C173", "title": "check_data reports NaNs and nothing else", "statement": "As documented, for a matrix whose dimensions are in order check_data reports invalid input exactly when an entry of the matrix (not of the padding) is a NaN.", "quantifier": "for all binary formats with rounding to nearest, storage orders, sizes, leading dimensions and entries", "why_tests_cant": "Tests use small numbers.", "anchors": ["source/core/utilities/da_utils.cpp: check_data", "source/include/aoclda_utils.h: da_check_data_d"]}
{"id": "C174", "title": "The checks of array arguments", "statement": "check_1D_array and check_2D_array succeed exactly when the sizes, the pointer and the leading dimension are in order and, if asked for, check_data finds nothing; store_2D_array gives the same status, and in mode 0 keeps by columns the entries of the matrix.", "quantifier": "for all sizes (negative ones too), pointers, leading dimensions, orders, minimal sizes, options and entries", "why_tests_cant": "Tests try a few wrong arguments.", "anchors": ["source/core/utilities/da_utils.cpp: check_1D_array, check_2D_array", "source/core/utilities/basic_handle.cpp: store_2D_array"]}
{"id": "C175", "title": "PCA fixes signs without changing the decomposition", "statement": "Column c of U and row c of VT change their signs together or not at all, so the decomposition still holds; afterwards an entry of the column with the greatest absolute value is not negative, and the rows of VT beyond the components asked for stay.", "quantifier": "for all sizes, leading dimensions that hold them, numbers of components and entries", "why_tests_cant": "Tests compare a few decompositions.", "anchors": ["source/core/factorization/pca/pca.cpp: compute"]}
