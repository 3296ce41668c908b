{
 "C02": {
  "note": "The code violates the full statement (C02_remove_violated): a range strictly enclosing every selected index is reported as removed but nothing is removed. The partial theorem proves set difference in all other cases."
 },
 "C38": {
  "note": "Tiling is proved for the general, tall-skinny and forest schemes. The tree-build scheme skips samples for more than 256 threads (C38_tree_blocks_violated) and the tall-skinny scheme exceeds its block limit (C38_tall_skinny_limit_violated); the partial theorems cover at most 256 threads / limits up to 256."
 },
 "C36": {
  "note": "Shares are exact rationals; the floating-point rounding of the code and the conversion of floating-point class labels are not modelled."
 },
 "C35": {
  "note": "The entries of a caller-supplied shuffle array are assumed to be row indices; the code does not check them."
 },
 "C32": {
  "note": "Exact for every metric and thread distribution except Minkowski with p = 2 (the default power), where the code compares the squared distance with the unsquared radius (C32_minkowski_two, C32_minkowski_violated). Distances are exact; only the brute-force method is covered here, the trees are C30/C31."
 },
 "C33": {
  "note": "The serial method satisfies the property (C33_serial_partial). The parallel method, chosen whenever more than one thread is available, does not: it can split one cluster in two and merge clusters that share only a border sample (C33_parallel_violated, C33_parallel_merges_violated); C33_parallel_partial states what holds for every interleaving."
 },
 "C34": {
  "note": "Exact arithmetic (the double variant without rounding); std::nth_element and std::sort are arbitrary within their contract."
 },
 "C42": {
  "note": "Distance values are an arbitrary function (kernels not evaluated); NaN not modelled. Result order among equal distances is left open because it depends on the schedule."
 },
 "C18": {
  "note": "Any interleaving of the critical sections and column copies of any threads, null data included. A failed put (null data) loses the slots it acquired (C18_failed_put_leaks)."
 },
 "C43": {
  "note": "Violated when a key is stored again (C43_violated); proved for all histories that store a key only while it is absent."
 },
 "C44": {
  "note": "Main loop, warm start and the parallel start of nu-SVM, with every interleaving of the threads' cache writes. Kernel evaluation is an arbitrary function of the sample. C44_oversized_set_wrong shows what goes wrong outside the solver's own calls.",
  "status": "proved"
 },
 "C19": {
  "note": "All strings, all thousands separators, any integer range containing 0 (int64 and int32 are instances). A digit as separator is treated as a separator, as in the code."
 },
 "C45": {
  "note": "Exact rational arithmetic. Violated: text after the number is ignored, a long exponent overflows an int, leading zeros count as significant digits, empty format options read past the string (C45_rubbish_accepted, C45_exponent_overflow, C45_leading_zeros, C45_empty_option). Proved: every grammatical number in range is read exactly."
 },
 "C23": {
  "note": "Cell parsing is an arbitrary function (see C19, C45). Starts from the tokenised lines. With uninitialised output variables a ragged file with headings makes the call free the caller's pointer (C23_uninitialised_pointer_freed)."
 },
 "C24": {
  "note": "Any result of reading the cells; 'accepts' means accepted by the library's readers, which take a date for a number (C24_dates_become_numbers). The conversion of the typed columns into the data store is not part of it."
 },
 "C04": {
  "note": "The property fails twice: a key below the first range decrements begin() (undefined behaviour, C04_violated; exactly when: C04_find_undefined_iff), and insert checks only the two ends of the new range, so a range strictly enclosing an existing one is accepted (C04_enclosing_violated). Proved instead: with libstdc++'s behaviour of --begin(), every history without enclosing insertions gives exact lookups and no overlap (C04_lookup_partial); and for maps built the way a data store builds them every non-negative column is looked up exactly, with no undefined behaviour (C04_store_lookup_partial)."
 },
 "C12": {
  "note": "Any traversal order of the hash table, any number of options of the four types. The registry read into must know the saved options with the same types (a fresh handle of the same type); at file level the option sets are equal. Validation of loaded values is absent in the code and not part of the property."
 },
 "C13": {
  "note": "Values (scalars, strings, vectors, nested vectors), sequences and complete files of every kind of handle, including 32-bit files read by 64-bit programs; 64-bit files are refused by 32-bit programs. Reals are bit patterns. Hypotheses: integers and sizes fit the integer type of the writer, counts match the containers."
 },
 "C14": {
  "note": "Violated: an unknown handle type leads to a null pointer call (C14_unknown_type), a negative or huge number of trees or classifiers to an uncaught std::length_error (C14_negative_count), and a nearest-neighbours file cut inside the header of its search tree can load successfully (C14_truncated_tree). The partial theorems: reads never leave the bytes and bad element counts are refused for arbitrary bytes, and files of all handles cut anywhere else are refused. Deep recursion on crafted trees and unchecked loaded indices/enumerators are not modelled."
 },
 "C15": {
  "note": "For every kind of handle and all contents; saving never writes beyond the reserved size even when it fails."
 },
 "C46": {
  "note": "Violated for row-major matrices with one column, at least two rows and a leading dimension above one (C46_violated, exact extent C46_extent); proved otherwise."
 },
 "C09": {
  "note": "Literally violated only for strings: a label of a categorical option spelt with other capitals or blanks is accepted and read back in its registered spelling (C09_violated; C09_read_back says exactly what is read). Literal for numbers, free-form strings and registered labels (C09_read_back_partial). Frame, refusal, locking and histories are proved in full."
 },
 "C10": {
  "note": "Violated by NaN: set skips the NaN checks of validate (C10_violated). C10_extent: after any history a numeric option is within its registered bounds or holds NaN; C10_partial for histories that offer no NaN; C10_integers unconditional. Loading from a file, which checks nothing, is not a set call and not covered."
 },
 "C11": {
  "note": "Strings are all byte lists; white space and case folding of the C locale, non-multiline anchors as in libstdc++. Requires registered names in normal form, proved of all names the library registers (C11_library_names)."
 },
 "C47": {
  "note": "Violated: refresh runs before the option is looked up (C47_violated); C47_extent says exactly what a refused call does; C47_partial where refresh does nothing."
 },
 "C48": {
  "note": "Violated for negative lengths, converted to size_t before the comparison (C48_violated); proved for lengths from 0 up."
 },
 "C25": {
  "note": "For values that < orders (no NaN).  With a NaN the introsort still ends, in bounds, with a permutation (C25_introSort_nan), but the others may be out of order (C25_nan_unsorted).  The bucket sort is proved for values that are categories below n_cat and buckets of the size the caller allocates."
 },
 "C26": {
  "note": "Violated: if every sample satisfies the split the last is put right (C26_all_left, C26_violated); NaN at both ends never ends (C26_nan_hang); the histogram versions read the bins with the leading dimension of X (C26_stride).  C26_partial: correct in all other cases."
 },
 "C49": {
  "note": "std::sort is any sorting function."
 },
 "C27": {
  "note": "For any thresholds in non-decreasing order (a NaN value included, C27_nan); that compute_thresholds produces such is part of C51."
 },
 "C51": {
  "note": "Violated for float (C51_violated, with an exact model of binary32: 150000 values and 290 bins write one threshold too many).  Missing from the partial theorem: it is in exact arithmetic, so it does not say for which sizes float and double are safe."
 },
 "C50": {
  "note": "Violated for minimum 3 with tied values (C50_violated): ties are counted twice.  C50_partial: true for a minimum of 1 or 2 (the default is 2) or without ties; missing: minimum above 2 with ties in places where no double counting happens."
 },
 "C53": {
  "note": "Violated for one-vs-all on raw data in a bootstrap sample (C53_violated): the table of categories counts each drawn sample once, the totals count it with its frequency.  C53_hist: the histogram strategies are right; C53_onevall_partial: raw one-vs-all is right without repetitions."
 },
 "C28": {
  "note": "Violated: one-vs-all splits of histograms store the bin number but prediction compares it with the value; one-vs-all splits in bootstrap samples; feature threshold 0; midpoints rounded to the lower value; histograms of data with padding (C28_violated, C28_hist_onevall, C28_threshold_zero, C28_midpoint, C28_bootstrap, C28_padding). C28_partial excludes exactly these; C28_ends holds without conditions."
 },
 "C52": {
  "note": "Violated for one-vs-all splits, where predict_proba compares with a threshold that is never set (C52_violated); C52_partial covers trees without such splits."
 },
 "C54": {
  "note": "For every state of every fit, with arbitrary comparisons of values."
 },
 "C55": {
  "note": "Violated for maximum depth 0 (0 leaves are reported) and after a second fit (depth is not reset); C55_partial covers the rest."
 },
 "C39": {
  "note": "For any division of the iterations among threads numbered below n_threads (C39_static: the default static schedule is one, although the team can be larger than n_threads) and any interleaving of the accesses. C39_trees links it to the trees of C28/C54."
 },
 "C56": {
  "note": "Violated: refresh() is not overridden, so setting new data leaves the handle trained (C56_violated, C56_class_overflow, C56_silent), and a fit whose histograms fail leaves null trees (C56_null_tree). C56_partial: right after a successful fit."
 },
 "C57": {
  "note": "In exact arithmetic; same divisions and interleavings as C39."
 },
 "C29": {
  "note": "For any linear order on the distances and k >= 1 (the code dereferences distances[0] for k = 0). C29_nan: with NaN, whose order is not linear, the property fails."
 },
 "C30": {
  "note": "Exact over the real numbers for every admissible metric, data set, leaf size, radius and query, for any nth_element result and thread schedule. Two gaps in the code: euclidean_gemm with more queries than samples reads outside A_norms (C30_kd_violated, C30_norms_exact), and the ball tree root can miss samples with more than 256 threads (C30_ball_violated; exact for up to 256 by C30_ball_threads_partial). Rounding is not modelled."
 },
 "C31": {
  "note": "Exact over the real numbers, both trees, any number of threads, k >= 1, distances not above numeric_limits::max(). Gap: euclidean_gemm with more queries than samples (C31_kd_violated, C31_ball_violated). Rounding is not modelled."
 },
 "C05": {
  "note": "Proved for all histories of column and row concatenations, horizontal concatenations, settings and refused calls in which rows are added only below columns that do not share their last block, and incomplete rows are completed by pieces with the same number of rows (Supported). Outside of these the code fails, shown by one witness per kind: endless loop (C05_row_loop_violated), null pointer (C05_row_pieces_violated, C05_uneven_rows_violated), lost rows after a refused call (C05_refused_rows_violated). Data of blocks is private to them: aliasing with copy_data = 0 is not modelled."
 },
 "C06": {
  "note": "Proved for supported histories and positions for which a value has been supplied (in complete stores all positions, C06_complete_partial). In incomplete rows set_element dereferences a null pointer (C06_incomplete_violated)."
 },
 "C07": {
  "note": "Proved for supported histories, slices of complete stores. Violated elsewhere: extract_column does not end after two full rows have been added (C07_endless_violated). The order of the output of extract_slice is always column-major; the row-major conversion is part of extract_selection (C08)."
 },
 "C08": {
  "note": "Proved for column-major extraction of every selection, and for row-major extraction when the selected columns are consecutive, on complete stores with supported histories. In row-major order two column intervals give a wrong matrix and writes behind the array (C08_row_major_violated), or overrun the temporary array (C08_overrun_violated)."
 },
 "C40": {
  "note": "Violated when a label is reused for another column or a column is labelled again (C40_moved_label_violated, C40_replaced_label_violated), and after horizontal_concat (C40_hconcat_violated). Exact behaviour of both lookups (C40_lookup_first, C40_label_last); proved for histories with fresh labels and columns (C40_fresh_partial)."
 },
 "C20": {
  "note": "Proved for cells without NUL, for all options that fit the writer (quotes escaped or doubled, any distinguishable characters, mixed line ends) and all cuts of the file. A cell with a NUL loses the text behind it (C20_violated)."
 },
 "C21": {
  "note": "Proved for all cuts of files in which no line is shorter than a line before it, when no later chunk begins with (a part of) a byte order mark in the first line; in particular for files without 0xEF. The other cases are violated: C21_violated, C21_mark_cut_violated, C21_capacity_violated, C21_skip_empty_violated."
 },
 "C22": {
  "note": "Longer rows are reported, and unterminated quotes when the unfinished line has at least as many complete fields as there are lines, for files without shorter lines; otherwise the unfinished line is dropped silently (C22_violated, C22_dropped_partial). Failed reads are not reported (C22_failed_read_violated), and files with many shorter lines lose their rest (C22_capacity_violated)."
 },
 "C58": {
  "note": "Proved for files in which no line is shorter than a line before it, for all options and cuts, also for files that end within quotes or whose reading fails. With shorter lines the NUL of the last word can be missing (C58_violated)."
 },
 "C59": {
  "note": "\"row start\" set back to 0 has no effect and the report of ignored lines keeps lines of earlier files (C59_violated, C59_report_violated); C59_options_iff gives the exact extent for the options."
 },
 "C60": {
  "note": "Proved when quotes are doubled or do not occur in cells of skipped rows; an escaped quote in a skipped row is not seen as escaped (C60_violated)."
 },
 "C61": {
  "note": "Proved for carriage return and newline with any options of Lines, and for lone carriage returns without comments and skipped lines; C61_line_ends_partial is about all cuts of files without shorter lines. Behind a comment line that ends in a lone carriage return a delimiter is lost (C61_violated)."
 },
 "C63": {
  "note": "Proved for all 2^16 patterns, on the bit operations of the code."
 },
 "C64": {
  "note": "C64_rounding_iff: the result is rounded correctly exactly when the number is not strictly between 2^-25 and 2^-24 in size; these become 0 although 2^-24 is nearer (C64_violated). The code tests exponent >= -24 and should test >= -25."
 },
 "C65": {
  "note": "Exact arithmetic over any commutative ring; cblas_ssyrk and the external half-precision product are taken by contract."
 },
 "C66": {
  "note": "Exact arithmetic over any commutative ring; increments are natural numbers, since the code multiplies them with the index (negative increments, allowed in BLAS, would leave the vector)."
 },
 "C67": {
  "note": "Exact arithmetic over any ordered field with a square root, NaN as extra value, no infinities. C67_frobenius: NaN elements are left out of the Frobenius norm, so C67_violated; the other norms and matrices without NaN are proved."
 },
 "C68": {
  "note": "With NaN as first element the result is 0 (C68_nan)."
 },
 "C69": {
  "note": "Full for SVC and SVR. nu variants: false when a class is used up before the working set is full (C69_working_set_nu_violated); proved when each class has at least ws_size entries. Overflow in maxpowtwo not modelled."
 },
 "C70": {
  "note": "Exact arithmetic over any ordered field. Box and gradient: all variants. Equality constraint: SVC, SVR; nu variants when each class has at least ws_size entries, false otherwise (C70_equality_nu_violated). Scalar wssi/wssj; half-precision tolerance not modelled; tau > 0."
 },
 "C71": {
  "note": "Exact arithmetic. SVC, SVR; nu variants when each class has at least ws_size entries, false otherwise (C71_objective_nu_violated)."
 },
 "C72": {
  "note": "Exact arithmetic, gradients below the largest number. Proved for working sets of at least 3 (SVC, SVR) or 7 (nu, with as many entries in each class); false for 2 and 4 (C72_optimal_c_violated, C72_optimal_nu_violated)."
 },
 "C73": {
  "note": "Exact arithmetic. The gradient is right for C-SVC and nu-SVR, and for the others if some coefficient is not zero; otherwise it is wrong for epsilon-SVR and nu-SVC (C73_warm_svr_violated, C73_warm_nusvc_violated, exact extent in C73_warm_svr_exact). The box is violated when the low-precision C is rounded up (C73_box_violated)."
 },
 "C74": {
  "note": "Exact arithmetic. The columns are right by C44."
 },
 "C75": {
  "note": "Exact arithmetic. Proved for C-SVC, epsilon-SVR and nu-SVR; nu-SVC needs classes of at least nu*n/2 samples (C75_start_nusvc_violated otherwise). C75_trained_c continues to any number of iterations."
 },
 "C76": {
  "note": "Exact arithmetic; kernel values and norms of a block are those of C44."
 },
 "C77": {
  "note": "Exact arithmetic. Margins and residuals proved for all four models (nu-SVC for a positive scale), and end to end for C-SVC (C77_trained_svc). The bias between gradients is violated for a single class and for nu at its upper limit (C77_between_violated, C77_nu_between_violated), proved otherwise."
 },
 "C78": {
  "note": "Exact arithmetic, training replaced by arbitrary multipliers. Proved for the first compute after set_data; violated for a second one (C78_refit_violated: write outside; C78_counts_violated) and for ldx > n_samples (C78_vectors_violated)."
 },
 "C79": {
  "note": "Exact arithmetic. All parts proved except the agreement of predict with the largest one-versus-rest value, violated for equal votes (C79_ovr_violated) and proved without ties."
 },
 "C80": {
  "note": "Violated by a failed set_data on a handle with data (C80_released_violated, C80_predict_violated, C80_stale_violated) and by a second fit with the RBF kernel (C80_rbf_violated). Proved for sequences without a failed set_data on a handle with data (C80_partial), after a successful set_data in any state (C80_repaired), and for the first fit (C80_rbf_partial gives the error of fit k)."
 },
 "C81": {
  "note": "Exact arithmetic. Proved: clamped logistic value (C81_sigmoid), distribution for every iteration limit (C81_distribution, C81_predict_proba), descent (C81_descent), near-optimality when the stopping test is met (C81_optimal), consistent pairs (C81_consistent). The two-class clause is violated (C81_binary_violated: a pairwise probability of 0.504 gives 1/2); within 0.005 otherwise (C81_binary_partial)."
 },
 "C82": {
  "note": "Exact arithmetic; the fold classifiers are arbitrary functions of their training samples; exp and log are the real functions where convexity is needed. C82_cross_validation, C82_newton_matrix, C82_slope, C82_newton, C82_optimal, C82_platt. The status clause is violated (C82_status_violated); it holds when there are not more folds than samples (C82_status_partial)."
 },
 "C83": {
  "note": "Exact arithmetic: C83_accepts, C83_sites_partial, C83_uniform_partial, C83_defined (the conversion to integer is defined exactly when it fits). For any rounding the returned cell exists (C83_bounds). The full statement is violated for float (C83_float_violated) and double (C83_double_violated): the index computed with rounding excludes the right cell; C83_range_violated: points far from the sites make the conversion undefined."
 },
 "C84": {
  "note": "Exact arithmetic over any field (ordered where uniqueness is needed); gtsv with its contract. C84_spline, C84_hermite, C84_solvable, C84_unique, C84_reproduces, C84_eval, C84_evaluate. Violated: leading dimension (C84_ld_violated; holds for tight storage, C84_ld_partial) and order of the blocks (C84_orders_violated; holds for increasing requests, C84_orders_partial)."
 },
 "C85": {
  "note": "Exact arithmetic. All three clauses are violated, each with a concrete sequence: C85_null_violated, C85_dim_violated, C85_bc_violated (safety), C85_stale_violated, C85_order_violated, C85_deriv_violated (results), C85_failed_violated (failures). C85_partial: sequences with known models, one dimension and storage order, tight arrays, and no unsorted sites before uniform sites are safe and correct. C85_evaluate: evaluate is safe after any sequence. C85_failed_partial: everything a failing call can change."
 },
 "C86": {
  "note": "Exact arithmetic; handling of empty clusters not included. C86_violated: with a schedule in which a thread runs another block after the last one (allowed for schedule(dynamic)) samples lose their labels. C86_nearest_partial, C86_iteration_partial, C86_same_labels_partial: for blocks in increasing order on every thread, any number of threads, clusters, iterations, any lock orders, every kernel, for any distance with triangle inequalities; C86_euclidean_partial and C86_spherical_partial are the two distances over the reals. C86_reduction: the vector reduction."
 },
 "C87": {
  "note": "Exact arithmetic; gemm, the norm of LAPACK and the square root are external. Handling of empty clusters not included. The padding of workc1 is required to hold infinity, as kmeans.cpp:614-617 stores."
 },
 "C88": {
  "note": "Exact arithmetic. C88_stops is for Euclidean distances and without handling of empty clusters; C88_spherical needs centres no longer than one, which the iteration keeps."
 },
 "C89": {
  "note": "C89_violated: three clusters and two lanes, one sample with a tie: other labels and other centres. C89_exact: among the nearest centres the first lane wins, then the lowest index. C89_kernels_partial: without ties all kernels agree in labels and centres for any number of iterations."
 },
 "C90": {
  "note": "Exact arithmetic. C90_violated and C90_first_violated: samples 1, 2, 10, 11 from centres 10 and 1. C90_means holds for every run. C90_exact gives the labels of every run; nearest, inertia and end are proved when every initial centre has the norm of the first mean of its label (nearest for spherical clustering always)."
 },
 "C91": {
  "note": "Exact arithmetic. C91_violated: spherical clustering, two samples in one of two clusters. C91_error for every call. Euclidean distances: C91_split_partial has everything. Spherical: counts, new centres and centres not touched (C91_spherical_partial), no empty cluster (C91_filled_partial)."
 },
 "C92": {
  "note": "Exact arithmetic. Three negations: C92_full_violated (last labelling empties a cluster), C92_nearest_violated (spherical, labels not nearest although they stayed), C92_elkan_violated (half distances of the centres before the split). Euclidean Lloyd: C92_nearest_partial has nearest labels, means of full clusters, and full clusters if the labels stayed. MacQueen with right stored norms: C92_macqueen_partial. Elkan after a split: only the negation."
 },
 "C93": {
  "note": "Exact arithmetic, Euclidean distances. C93_inertia for every iteration with its handling. C93_violated: equal samples. C93_stops_partial: at least as many different samples as clusters."
 },
 "C94": {
  "note": "C94_violated: the last labelling is not looked at. C94_error_partial and C94_macqueen_partial say exactly when the run fails and that it is the plain run otherwise. C94_ignore."
 },
 "C95": {
  "note": "Exact arithmetic. C95_violated: for scale only the data are already divided by the root of the number of samples, but the gap multiplies the penalties by the number again. C95_gap_partial: all other scalings (and what the gap does bound for scale only)."
 },
 "C96": {
  "note": "Exact arithmetic. Violated for both step functions: C96_violated (GLMnet puts the last change in only at the next step), C96_sklearn_violated (a step below 2 eps is dropped by the solver but not from the residual). C96_glm_partial, C96_sklearn_partial say when it is right."
 },
 "C97": {
  "note": "Exact arithmetic. C97_glm in full for the GLMnet step with divisors that are not zero (C104). C97_violated for the scikit-learn step; C97_sklearn_partial if no step that is not zero is dropped (always so if eps is zero, C97_noDrop)."
 },
 "C98": {
  "note": "Exact arithmetic. C98_violated (GLMnet, stale residual, warm start), C98_sklearn_violated (dropped step). C98_sklearn_partial without dropped steps; C98_glm_partial if the last coefficient of the last cycle did not change."
 },
 "C99": {
  "note": "Exact arithmetic. C99_violated for scale only. C99_zero_partial: all other scalings, for all data."
 },
 "C100": {
  "note": "C100_violated: restart = 0, which the option allows. C100_ends_partial: restart not zero and maxit*n+n-1 representable as da_int (the code forms iter*n+k)."
 },
 "C101": {
  "note": "Needs restart not zero and integers wide enough, as C100. The comment at coord.hpp:963-966 says that a coordinate at its limit is left deactivated; in fact it is evaluated in every cycle, since skip is not below skipmax then."
 },
 "C102": {
  "note": "C102_violated: the flag of a failed step is overwritten by the next call. C102_check_partial: failures of the check are reported at once, and those of the step never (for all runs)."
 },
 "C103": {
  "note": "Exact arithmetic; values are numbers (no NaN)."
 },
 "C104": {
  "note": "C104_violated: scale only, a feature that is zero (or constant with an intercept), no quadratic penalty: 0/0. C104_divisor_partial says exactly when. Standardize with a constant feature is outside Data.Ok (preprocess_data divides by zero before, or sets std_xv to 1 for a zero column)."
 },
 "C105": {
  "note": "The summands are values of a commutative monoid, so rounding, and with it the order of the additions, is outside the model. RECURSIVE_SUM_THRESHOLD is a parameter that is positive."
 },
 "C106": {
  "note": "Allocation does not fail."
 },
 "C107": {
  "note": "Exact arithmetic. With one observation and dof = 0 the documented degrees of freedom are 0; the code gives 0."
 },
 "C108": {
  "note": "Exact arithmetic; skewness with any square root. The value -3 for constant lines is below the bound -2 of all other data."
 },
 "C109": {
  "note": "Exact arithmetic with exp and log given by their laws; minus infinity is a value of its own."
 },
 "C110": {
  "note": "Exact arithmetic. C110_between_violated: 0 and 1 give 2. C110_between_partial: all lines without zeros. C110_zeros: exactly what happens with zeros."
 },
 "C111": {
  "note": "Exact arithmetic, any square root. C111_documented_violated: the deviation about given shifts uses the number of results as the number of observations. C111_documented_partial: all other calls. C111_given_shifts: exactly what those calls compute, and when they divide by zero."
 },
 "C112": {
  "note": "Exact arithmetic, any function for the square root that is zero only at zero. C112_undo_violated: constant data that are not zero, one result, dof = 0. C112_undo_partial: all other calls."
 },
 "C113": {
  "note": "Exact arithmetic; the correlations for any exact square root. C113_success_violated: the status of da_syrk is ignored, so a failed allocation leaves the matrix unwritten and reports success. C113_no_memory: exactly that case. C113_covariance_partial and C113_correlation_partial: all other calls with at least two rows. C113_errors: the reports, among them the refusal of one row, which the documentation allows."
 },
 "C114": {
  "note": "Exact arithmetic. C114_blocked_product: the value of every entry of the triangle, all other cells unchanged. C114_no_memory: the failed allocation."
 },
 "C115": {
  "note": "Exact comparison of coordinates in an ordered field; no NaN."
 },
 "C116": {
  "note": "Exact arithmetic. C116_statement: the full property for a dimension. C116_tree_partial: two and three dimensions. C116_one_dimension_violated: in one dimension the arena can be full, and nine equal points stay in a leaf that is not at the greatest depth. C116_any_dimension_partial: everything else holds in one dimension too. The reservations are any that give free slots (what C118 says about them)."
 },
 "C117": {
  "note": "Exact arithmetic; the means and distances are not rounded, so the threshold test is exact. C117_repulsive_forces: any theta. C117_exact_forces: theta = 0. The reservations are any that give free slots."
 },
 "C118": {
  "note": "C118_statement: the full property. C118_slots_given_twice and C118_slots_skipped: counterexamples, possible only when the arena gets full, so (C116) only in one dimension. C118_all_fits_partial: all executions in which everything fits. C118_calm_partial: executions in which no request is made while another is to be taken back, as with one thread."
 },
 "C119": {
  "note": "The distances and neighbours are arguments, with distinct neighbours for each sample."
 },
 "C120": {
  "note": "Exact arithmetic; exp is any non-negative function, so underflow to 0 is covered, but not overflow of beta to infinity or rounding in the sums."
 },
 "C121": {
  "note": "Exact arithmetic; with rounding the sum is 1 up to rounding. At least one neighbour per sample."
 },
 "C122": {
  "note": "Exact arithmetic: C122_kernels, C122_exact, C122_parts. The forces from the Barnes-Hut tree are the subject of C117."
 },
 "C123": {
  "note": "C123_value: any ordered field and any function log. C123_derivative: real numbers, divergence without the lower bounds, and equality with the reported value when they do not take effect."
 },
 "C124": {
  "note": "Exact arithmetic, with 0.2, 0.8 and 0.01 as the rational numbers."
 },
 "C125": {
  "note": "C125_numbering_violated: training again empties the lists but the numbers go on. C125_index_content gives the exact numbering; C125_index_content_partial is the property when the handle is not trained while the index holds rows. Both assume that the handle is not trained again with more lists than samples and that the storage order is not changed before training. Exact arithmetic; the train fraction is 1."
 },
 "C126": {
  "note": "C126_overflow_violated: when a distance to a centroid reaches the largest number of the type, positions of the heap that were never written are taken for centroids. C126_search_partial assumes distances to centroids below it and C126_exact_when_all_probed also distances to rows. Exact arithmetic; squared Euclidean distance or minus the inner product, before the final conversion."
 },
 "C127": {
  "note": "C127_zero_block_violated (64-bit, 524288 features in double precision: division by zero) and C127_square_violated (32-bit, 46341 features: overflow). C127_block_sizes_partial with C127_exact_extent is the exact extent; C127_add_block_size holds in full. The square root is exact."
 },
 "C128": {
  "note": "C128_failed_training_violated and C128_storage_order_violated are the two ways in which it fails; C128_no_fault_partial covers all other sequences."
 },
 "C129": {
  "note": "Real arithmetic; derivatives where the penalty has one (coefficient not 0, or no l1 part, or the intercept). Gradients for a matrix stored by columns, which is what fit passes."
 },
 "C130": {
  "note": "C130_penalty_violated: only class 0 is penalized (C130_exact_extent). C130_objective_partial: no penalty or two classes. C130_gradient holds in full for the objective as it is."
 },
 "C131": {
  "note": "C131_new_gradient_violated: with new linear combinations the sum of exponentials has an extra 1 (C131_exact_extent). C131_gradient_partial: after the objective, as the solver does. C131_objective holds in full."
 },
 "C132": {
  "note": "C132_negative_scores_violated: with a set of coefficients per class, class 0 is returned when no score is positive. C132_exact_extent and C132_soft_partial give what holds; C132_two, C132_reference and C132_score hold in full. Real arithmetic."
 },
 "C133": {
  "note": "C133_underflow_violated for a set of coefficients per class: the maximum starts at 0. C133_soft_partial: every sample has a score that is not negative. C133_two and C133_reference hold in full (the latter for the objective of C130_exact_extent)."
 },
 "C134": {
  "note": "Real arithmetic; derivatives where the penalty has one. A division by zero for no samples is excluded by fit."
 },
 "C135": {
  "note": "Field arithmetic. With a scale that is zero the maps divide by zero (C136)."
 },
 "C136": {
  "note": "C136_constant_feature_violated: with standardize a constant feature has scale 0 and revert_scaling divides by it. C136_constant_response_violated: scale only divides a constant response by 0. C136_exact_extent: no division by zero exactly outside these cases; C136_scaling_partial: the property whenever there is none. Real arithmetic."
 },
 "C137": {
  "note": "Stated for runs without a division by zero; C137_succeeds says when that is. The objectives of L-BFGS-B and coordinate descent are those of C134 and C95 (C137_objectives), the data are as C95 to C104 assume (C137_coord_data), and the direct solvers are C139 and C140. QR is taken to minimise the squares; its calls of LAPACK are not modelled. Real arithmetic."
 },
 "C138": {
  "note": "C138_ridge_violated: for alpha = 0 the squares are added up and not averaged, so the documented cost is minimised for lambda divided by the number of samples. C138_limit_violated: with scale only ridge regression is not the limit of the elastic net. C138_elastic_partial: alpha > 0, or standardize."
 },
 "C139": {
  "note": "The solution of the system, by potrf and potrs or by the conjugate gradient iteration, is a hypothesis. Real arithmetic."
 },
 "C140": {
  "note": "C140_violated and C140_limit_violated: the loop overwrites S[0] by its inverse before it uses it in the limit for the other singular values. C140_exact_extent: the limit in effect; C140_plain_partial: largest singular value at least 1, or products above the limit. C140_ridge holds in full. gesdd is a contract (IsSvd). Real arithmetic."
 },
 "C141": {
  "note": "Exact. The offsets are natural numbers, da_int overflow is not modelled."
 },
 "C142": {
  "note": "Field arithmetic: rounding and overflow are not modelled. A schedule is an order of whole blocks of rows. C142_buffers: the packing buffers suffice."
 },
 "C143": {
  "note": "Real arithmetic with the exact root and power."
 },
 "C144": {
  "note": "C144_cosine_violated: the sample 1 against 2, 1, ..., 1 with 1025 samples; the distance of the last pair comes out as 1/2 and not 0. C144_computed: what is computed for every input; C144_self_zero: for one matrix the distance between samples j and 1024 + j always comes out as 0. C144_cosine_partial and C144_documented_partial: up to 1024 samples in the second matrix. Real arithmetic."
 },
 "C145": {
  "note": "gemm and syrk are contracts (their results as sums). Field arithmetic; the root is any function that is 0 at 0. The reduced precision special case is not modelled."
 },
 "C146": {
  "note": "The check of the data for NaN belongs to the callers and is not modelled."
 },
 "C147": {
  "note": "C147_crash: with one matrix of more than 256 samples and more than one thread the null pointer Y is dereferenced, and in no other case. C147_linear_violated follows. C147_linear_partial, C147_polynomial_partial and C147_sigmoid_partial: the documented values in every other case. Real arithmetic with the exact functions; gemm and syrk are contracts."
 },
 "C148": {
  "note": "C148_rbf_violated: 256 samples at 1 and 256 at 0 with two threads; a kernel value comes out as e instead of 1/e. C148_blocked: what is computed instead for one matrix of full blocks. C148_rbf_partial and C148_range_partial: every other case. Real arithmetic with the exact functions; gemm and syrk are contracts."
 },
 "C149": {
  "note": "The check of the data for NaN belongs to the callers and is not modelled."
 },
 "C150": {
  "note": "Field arithmetic; cblas_syrk is a contract. A run is any list of blocks with their threads in which each thread takes its blocks in increasing order and thread 0 has at least one, as a static schedule guarantees."
 },
 "C151": {
  "note": "C151_violated, C151_short_blocks: 4072 rows and 1025 columns with four or more threads give blocks of 1024 rows. C151_overflow: by how much tau is exceeded. C151_extent: the exact condition. C151_blocks_partial: up to 1024 columns."
 },
 "C152": {
  "note": "Exact arithmetic over an ordered field. geqrf and orgqr are contracts: together they give an orthonormal and a triangular factor; sound_exists shows that over the reals the contract can be met. C152_qr_1024: without the hidden setting up to 1024 columns always qualify; for the others see C151. Only with store_factors; the variant with geqrt3 is not modelled."
 },
 "C153": {
  "note": "Exact arithmetic over an ordered field; the neighbour search appears as the arrays it returns; imatcopy by its contract."
 },
 "C154": {
  "note": "Violated: a distance up to epsilon gets weight 1, a distance d between epsilon and 1 gets 1/d > 1. C154_extent: exactly then. C154_outvoted: a query that coincides with a training sample is given another class. C154_weights_partial: the rest."
 },
 "C155": {
  "note": "Violated: 1.0 is stored at proba[classes[manual_label_index] + j_local], the label in place of its position. C155_wrong_class, C155_wrong_label (labels 1, 2), C155_outside (labels 5, 7: store outside of the array), C155_corrupts (labels -1, 1: the row of another query). C155_extent: with a query without neighbours and an outlier label among the classes the result is right exactly when the label equals its position. C155_manual_partial: the positive part."
 },
 "C156": {
  "note": "Violated: set_labels does not reset classes_computed, most_frequent_label_computed and manual_outlier_label_checked, and set_params overwrites manual_label without resetting the latter. C156_stale_classes, C156_wrong_label, C156_stale_position; C156_extent: the classes of the first prediction are never replaced. C156_first_labels_partial: right as long as neither labels nor data are set after the first prediction."
 },
 "C157": {
  "note": "Exact arithmetic; cblas_iamax as in the reference BLAS. Radius neighbours with outlier handling = manual are in C155."
 },
 "C158": {
  "note": "Exact arithmetic; da_basic_statistics::mean by its contract (C105). mean_target is passed in as the mean of the targets in force; that it is not recomputed after set_targets is in Findings."
 },
 "C159": {
  "note": "Violated: the size of pred_targets is the maximum of the numbers of neighbours of all queries but the last. C159_extent: a store outside exactly when there are two queries or more and the last has more neighbours than every other. C159_uniform_partial: right otherwise."
 },
 "C160": {
  "note": "Exact arithmetic; the means by their contract (C105); the kernel functions appear as the array they return, assumed symmetric."
 },
 "C161": {
  "note": "Exact arithmetic; syevd by its contract (ascending eigenvalues and eigenvectors of the matrix in the upper triangle); the tolerances are parameters. The randomized solver is approximate and not covered."
 },
 "C162": {
  "note": "Exact arithmetic; cblas_gemm by its contract, the square root by its defining property."
 },
 "C163": {
  "note": "Violated: compute never resets inverse_fitted. C163_extent: available also when an earlier compute has fitted it, with the dual coefficients of that one. C163_same_option_partial: right while the option stays the same."
 },
 "C164": {
  "note": "Violated: a compute that fails leaves model_trained and n_components of the model before and eigenvalues of length n_samples, all of which get_result copies. C164_extent: so after every failure of this kind. C164_success_partial: right after a successful compute."
 },
 "C165": {
  "note": "Violated: eigenvalues.resize(n_samples, 0) keeps the values of the model before, and da_random_syevd overwrites only the first n_components. C165_search_partial: right with the dense solver or when the model before has no more components."
 },
 "C166": {
  "note": "Exact arithmetic; the means and variances by their contracts (C105-C112), da_syrk by its contract."
 },
 "C167": {
  "note": "Exact arithmetic; cblas_gemm and cblas_gemv by their contracts; the decomposition enters C167_training as a hypothesis (standardised data times component = singular value times column of U)."
 },
 "C168": {
  "note": "Violated: standardize takes shifts that are all 0 for a request to compute the means, so for a model with means 0 inverse_transform adds the means of its own product and leaves them in the model. C168_extent: exactly then; C168_inverse_partial: right otherwise."
 },
 "C169": {
  "note": "Violated as C168. C169_back_partial: right when some mean (and, for the correlation method, some deviation) is not 0."
 },
 "C170": {
  "note": "Violated: dof is set to -1 by a biased compute and never set back, while div is. C170_extent: exactly after a biased compute; C170_correlation: what the total variance becomes; C170_divisor_partial: right otherwise."
 },
 "C171": {
  "note": "Violated twice: qr stays set for a later compute with the randomized solver and 'store u', and a refused set_data on a handle with row-major data leaves A null and initdone set. C171_extent: exactly then; C171_first_partial and C171_same_partial: right for the first compute after set_data and while the randomized solver is not used."
 },
 "C172": {
  "note": "Violated: compute sets store_U and ns before it refuses syevd with 'store u' and leaves model_trained. C172_extent: exactly when U is shorter than the options ask for; C172_success_partial: right after a successful compute."
 },
 "C173": {
  "note": "Violated: the test x == x + 1 also rejects infinities and big numbers, 2^55 in double precision. C173_reported: NaNs, infinities and all numbers from 2^(prec+2) on are rejected; C173_moderate_partial: right when the entries are NaN or at most 2^prec - 2. In between it depends on the parity of the last digit."
 },
 "C174": {
  "note": "store_2D_array for handles with options and in modes 0 and 3 (status) and 0 (entries); the transposition by its contract (C37)."
 },
 "C175": {
  "note": "In exact arithmetic, no NaN; for computations with 'store u' (without it the loop is not entered)."
 }
}