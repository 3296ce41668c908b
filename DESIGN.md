# Design of the formal model

Subject: amd/aocl-data-analytics at the pinned commit in `/repo` (C++).  The
model is written by hand from the text of the sources; nothing was built or run.

## Layout

One directory per area, `lean/Verif/<Area>/`, namespace `Verif.<Area>`:

* `Model.lean`   -- executable transcriptions of the C++ functions.  Every
  definition carries the file and lines it transcribes and says where it is
  simplified.
* `Spec.lean`    -- small specifications written without reference to the model
  (sets, lists, matrices, graphs); short ones stand at the top of `Props.lean`.
* `Proof*.lean`  -- helper lemmas (small areas keep them in `Props.lean`).
* `Props*.lean`  -- the property theorems, each with a concrete `example` next to
  it.  These are the files to read.

`tools/mkmanifest.py` regenerates `MANIFEST.json`; `tools/seed.py` runs seeded
bugs.  In `seeded/LOG.jsonl`, `failing_proofs` are the declarations whose proof
failed in the edited copy and `theorems_failed` are the property theorems that
thereby lose their proof (they fail themselves or depend on a failing
declaration in the unedited build).  Losing its proof does not by itself mean
that the listed theorem is false of the edited program; the claim the edit is
meant to break is in `claim`.  Every attempt is logged, including survivors and
edits that turned out not to apply or not to elaborate (`invalid`).  An entry
with a `comment` saying the edit is harmless is not evidence of detection: the
proof broke although the statement is still true.

Conventions

* A theorem named `Cnn_...` belongs to property `Cnn` of `properties.jsonl`.
* Undefined behaviour of the C++ (out-of-bounds access, null dereference,
  decrement of `begin()`, signed overflow, endless loop) is a separate outcome of
  the model (`none` / `ub`), never a silently chosen default value.
* When the code does not satisfy the property, the file proves the negation with
  a concrete witness (`..._violated`) and a theorem `..._partial` for the part
  that does hold; the disagreement is listed below under "Findings".

## Trusted base

* The Lean 4 kernel.  Axioms used by the property theorems: a subset of
  `propext`, `Classical.choice`, `Quot.sound` (checked with `#print axioms`).
* The transcription from C++ to Lean, i.e. the model files.
* Integers (`da_int`) are mathematical integers unless a file says otherwise;
  where overflow is part of the property (integer parsing, serialisation) the
  width is modelled.  Real arithmetic is exact (`ℝ`, `ℚ` or any linear ordered
  field); floating-point rounding is not modelled, except in `Histogram` (a model of
  binary32 rounding) and where the operations are parameters of the model (`Tree`, `Parse`).
* The C++ standard library (`std::set`, `std::map`, `std::vector`,
  `nth_element`, `sort`, `shuffle`) is represented by its documented behaviour;
  where the standard leaves a choice (element order after `nth_element`, outcome
  of a shuffle) the theorems quantify over every permitted outcome.
* Memory exhaustion (`std::bad_alloc`) is not modelled.

## Plan per property

C01-C03 `interval_set`: the ordered set of intervals is a list; the iterator
scan of `insert`/`erase` is transcribed with explicit end iterators; theorems
refine it to a set of integers and prove the sorted/disjoint/non-touching
invariant over all histories.

C04 `interval_map`: ordered list of keyed intervals with the (lower, -upper)
order; `find` with the `--begin()` step as undefined behaviour.

C05-C08 `data_store` (`DataStore`): heap of dense blocks chained by `next`, column map,
transcribed operations; refinement to a partial function (row, column) -> value over
histories of concatenations, settings and refused calls; selections and extraction.  A
null pointer that is followed and a walk that never ends are the outcome `none`.  Not
modelled: data shared with the user (`copy_data = 0`), missing values
(`select_non_missing`), loading from CSV files, error messages, conversion of a
refused `copy` or of an allocation failure.

C09-C11, C47, C48 `OptionRegistry` (`Options`): association from names to typed
options; state machine of register/set/get/lock and the public setters and getters;
reals are IEEE bit patterns, decoded for comparisons; `prep_str` on byte lists; the
list of all option names the library registers.  Not modelled: messages, printing,
`query_map`, the `_Float16` overloads, non-"C" locales.

C12-C15, C46 `model_persistence` (`Persist`): byte lists; writer in dry-run and
write mode and reader as a "codec" per value, handle, tree and registry; laws of
codecs (round trip, truncation, size agreement, safety on arbitrary bytes) proved
compositionally and instantiated for all nine kinds of handles that can be saved.
Not modelled: file streams, wrap-around of `size_t`, the checks `save_model` makes
before serialising, recursion depth.

C16 `da_error_t`, C17 `da_vector`, C18 `LRUCache`: state machines refined to
list / map by induction on histories.

C19 `char_to_num` for integers: character list parser against a grammar.

C20-C22, C58, C60, C61 tokenizer (`Tokenizer`): the state machine as actions on (state, byte), the
buffers with their capacities, `make_stream_space`, chunks, byte order mark and end of file; a run
with limits and padding of short lines is compared with a plain left fold over the bytes
(`runOf`), on which the writer, the invariants and the line ends are treated.  Not modelled:
messages, `parser_consume_rows` and the other functions that da does not call, `usecols`,
`header`, failing `malloc`.  A read outside a chunk (byte order mark) is the outcome `unspecified`.

C59, C62 the handle of the reader between reads (`Tokenizer/Reader`).
C63, C64 conversions between half and single precision, bit by bit (`Half`).  C65, C66 linear algebra
for half precision over any commutative ring, C67, C68 norms over any ordered field with NaN
(`HalfBlas`); `cblas_ssyrk` and the half-precision product of the external library by contract, rounding
of the arithmetic not modelled.

C23 `populate_data_array`: index arithmetic, refinement to a matrix.

C24 `auto_detect_csv`: fold over cells; join in a lattice of column types.

C25, C49 sorts (`Sort`): arrays as functions with swaps and a flag for accesses outside;
the comparison is an arbitrary Boolean function, so NaN is included; permutation,
sortedness, termination, and the run-length counting of bootstrap samples.

C26 partition of the samples of a node (`Partition`): one loop with two tests.

C27, C51 histograms (`Histogram`): binary search on any monotone test; thresholds with the
arithmetic on quantiles as a parameter, instantiated with the rationals and with an exact
model of IEEE binary32.  Not modelled: the parallel loops over features, the unused
`compute_thresholds_continuous`, `float_sort` (the values are any sorted sequence).

C50 search for the best split of a node on a continuous feature (`TreeSplit`): counts and the
scan over sorted values, for any comparison, midpoint and scoring function.

C53 search on categories and on histograms (`TreeSplit/CatModel`).

C28, C52, C54, C55 growth of a tree and prediction (`Tree`): every state that training can
pass through, as an inductive predicate; which feature is tried, by which thread and in
which order is left open.  Comparisons of values are parameters, so that rounded
midpoints can be expressed.

C29 bounded heap (`Heap`): arrays as functions, any decidable `<`; `Best` is the invariant
(heap order, and the cells are a best selection from the candidates so far), reused by C31.

C39, C56, C57 prediction with a forest (`Forest`): programs of accesses to memory for each
thread, run in any interleaving and for any division of the iterations; a generic lemma
(`Machine.lean`) reduces them to what each thread does alone.  `HandleModel.lean` has the
calls on a forest handle.

C30, C31 neighbour trees (`NnTree`): construction and searches of the k-d and ball trees
over any ordered field; `Geometry.lean` has the metrics over the real numbers,
`Build.lean` that the constructed trees are well formed (for every `nth_element`
outcome and every division of the blocks among threads), `Search.lean` that searches of
well-formed trees are exact.  The tasks that build subtrees run one after the other in the
model (they touch disjoint parts of `indices`).  In floating point a sample whose
distance agrees with the radius up to rounding may be treated differently by the
pruning (which compares coordinates) and by the distance test; this is not modelled.

C32 brute-force radius neighbours with explicit block/thread schedules.

C33 DBSCAN on an arbitrary symmetric neighbour table.

C34 quantiles with a nondeterministic `nth_element`.

C35-C38, C41 utilities: index arithmetic theorems, every schedule.

C40 labels: two tables as association lists.

C42 brute-force k-selection.

C43, C44 LRU cache lookups and their use by the SVM solver.

C69-C72 training loop of the SVMs (`Smo`): working set selection, local solver with the
scalar kernels, scatter and gradient update over any ordered field; the sorting is an arbitrary
function that sorts; the number of outer iterations is arbitrary, so that every stopping rule is
covered.  The kernel columns are those of C44.  Not modelled: rounding, the half-precision
tolerance, overflow of `maxpowtwo`.
C73-C75 start of the SVM solver (`Smo/Init`): cold starts of the four models, warm start, sums
shared between threads as lists of (thread, item) in any order.

C76-C77 end of the SVM training and decision function (`Smo/Decision`): bias, support vectors and
the blocked sum; an execution is any permutation of the list of atomic additions.

C78-C79 one-versus-one multiclass SVM (`SvmMulti`): creation of the classifiers, collection of the
support vectors and coefficients, votes. The multipliers of every classifier are arbitrary.

C80 state of the SVM handle (`SvmMulti/Handle`): pointers, recorded sizes and flags; a sequence of
calls is any list; a failed check is an argument of the call.

C81 coupling of pairwise SVM probabilities (`SvmProb/Model`): pairwise matrix, matrix of the quadratic
form, stopping test and updates, one sample.  C82 fit of the logistic parameters (`SvmProb/Platt`):
folds, Newton iterations with line search, status in compute.  Not modelled: overflow of `i * n`
in the bounds of the folds, memory errors, rounding.

C83 cells of the interpolation sites (`Interp/Cells`): checks of the sites, index, bisection, uniform
sites; every operation followed by an arbitrary rounding.  C84 cubic splines (`Interp/Spline`):
differences, tridiagonal systems, coefficients of the four kinds, evaluation.  Not modelled in these
two: NaN and infinities, memory errors, LAPACK's gtsv beyond its contract, rounding of the splines.

C85 the interpolation handle over sequences of calls (`Interp/Handle`): null pointer of the model,
lengths and contents of all arrays, flags.  Not modelled: lifetime of the arrays of the caller, null
arrays, memory errors, the results queries.

C86 Elkan's k-means (`Kmeans/Elkan`, numbers of an ordered field, real for the two distances):
initialization, assignment blocks with per-thread `block_size`, counts and sums, locks, new centres,
shifts, bounds in scalar and vector kernels, half distances, final labelling.  Not modelled: rounding,
infinities other than those of `workc1`, the stopping test, array bounds.

C87-C89 Lloyd's k-means (`Kmeans/Lloyd`, numbers of an ordered field): norms, the product with the data,
scalar and vector kernels with padding and lane reduction, the five ways to add up the centres, blocks on
any schedule, locks, scaling by columns, the loop with its stopping test and the final labelling.  Not
modelled: rounding, infinities other than the padding, array bounds, handling of empty clusters.

C90 MacQueen's k-means (`Kmeans/Macqueen`, numbers of an ordered field): initialization in blocks, distances
with the stored norms, the move of one sample with both centres computed afresh, the loop and the final
labelling.  Not modelled: rounding, infinities and isfinite, array bounds, handling of empty clusters.

C91 Empty clusters (`Kmeans/Empty`, numbers of an ordered field): handle_empty_clusters with its counts,
distances, choice of the sample, change of both centres and update of the distances, for centres stored by rows
or by columns.  Not modelled: rounding, infinities and isfinite, array bounds, the cleanup for each algorithm
at the end of the function.

C92-C94 Runs with the handling of empty clusters (`Kmeans/Handling`, numbers of an ordered field): the loop of
perform_kmeans with `empty_cluster_handling` and the cleanup of handle_empty_clusters for the three methods (norms
for MacQueen, bounds for Elkan).  Not modelled: as for C86-C91.

C95-C104 Coordinate descent (`Coord`, numbers of an ordered field): the solver coord_rcomm with its ledger, the driver
coord with monitor, time limit and slow-progress test as arbitrary inputs, and the call-backs of linear regression
(both step functions, the objective, the dual gap).  The remainder by `restart` and the product iter*n are kept as
hazards.  Data are taken as preprocess_data leaves them (`Data.Ok`).  Not modelled: printing, floating point rounding,
NaN, preprocess_data and revert_scaling themselves, the rescaling of the tolerance by <y,y>/m.

C105-C110 Moment statistics (`Moments`): da_sum with its three paths (recursive pairwise sums, thread chunks, blocks of
both dimensions with a tree of merges) over any commutative monoid, with the run-time environment (threads, orders of
the parallel iterations) as an arbitrary permutation of each loop; then mean, geometric and harmonic mean, variance,
skewness, kurtosis and moment over an ordered field.  A division by zero, the root of a negative number, a use of a
freed array and an index outside an array are faults.  Not modelled: rounding, overflow, the _Float16 instantiations,
failing allocations.

C111, C112 Standardization (`Moments`): da_standardize with its eight combinations of null, zero and given arrays, on top
of the model of the moment statistics.  The square root is a parameter; a division by zero is a fault.  Not modelled:
rounding (so C112 says nothing about the accuracy of the restored data), the wider type of _Float16, failing allocations.

C113, C114 Covariance, correlation and the blocked product (`Cov`): cov_corr_matrix with the copy, the call of the modelled
standardize, da_syrk and the copy of the triangle; da_syrk with its choice of blocks, the per-thread variables of the
parallel loop, the temporary blocks and their accumulation.  A schedule is any order of the blocks and any assignment to
threads in which every thread gets its blocks in increasing order and thread 0 is among them.  cblas_syrk is modelled by
its contract.  Not modelled: rounding, da_int wrap-around, failure of `new T[n * p]` and of the vector of means, and
n = 0 in da_syrk (division by zero in the model).

C115 to C118 The Barnes-Hut tree of t-SNE (`BarnesHut`): initialize_memory, compute_bbox, build_subtree with make_leaf, build,
compute_repulsive_batch4 and compute_repulsive_forces, for any number of dimensions.  The parallel loops run in any order and
distribution.  The tasks of build_subtree run one after the other in any order; what the reservation gives a node is decided
by an `Arena`, which may depend on the node and on all that was given before, and is only asked to give free slots (`Arena.Ok`);
since tasks only touch their own positions and slots, as proved, every interleaving gives the result of such a run.  The
atomic accesses to num_nodes themselves are the subject of C118 (`Slots`).  The two stacks of the traversal are a list of
pairs with the bound STACK_SIZE.  Not modelled: rounding, infinities and NaN in the points, int32_t and int8_t wrap-around
(2^31 points or nodes), n = 0, the sizes of the arrays in memory (std::bad_alloc).  The infinite thresholds for theta = 0 are
modelled as such.

C119 to C124 Affinities, gradient and update of t-SNE (`Tsne`): compute_distances_exact and compute_distances_knn from where
the distances and neighbours have been computed, compute_row_probabilities, symmetrize_to_csr, the rest of
compute_affinities, the three kernels of the attractive force with their horizontal sums, compute_attractive_forces,
compute_kl_divergence, update_embedding and the dense matrix and the two passes of the exact gradient in
gradient_descent_impl.  Parallel loops run in any order.  exp, log and std::sort are arbitrary functions (sort: within its
contract).  Not modelled: rounding, infinities and NaN, the choice of the kernel, the loop of gradient_descent_impl with its
stopping rules, set_data, the initial embedding and the call-backs.

C125 to C128 The inverted-file index for approximate nearest neighbours (`ApproxNn`): set_training_data, train with
read_training_options and train_ivfflat, add with check_options_update and add_ivfflat (all three phases), the choice of the
block sizes, ivfflat_search_query_parallel with update_heaps_from_list_blk and the sorted output.  The heaps are those of
`Heap`, the blocking that of `Blocking`.  The clustering is any function that returns n_list centroids; the blocks and lists
are done in any order; the distances by gemm are exact sums.  Not modelled: rounding, infinities and NaN, the normalisation of
rows for the cosine metric, the transposition of column-major queries, the conversion of the distances at the end, the train
fraction, the test overrides of the block sizes, kneighbors's argument checks, results, saving and loading.

C129 to C134 The cost functions of the linear models (`Logistic`): eval_feature_matrix, regfun, reggrd, the objective and
gradient call-backs for two classes, a reference class, a set of coefficients per class and least squares, and the
classification in evaluate_model.  The model is generic over an ordered field with exp, log and the rounding of labels as
parameters; the theorems are about the reals.  Arrays are functions of the flat index, so that layouts and strides are
modelled and bounds are not.  Not modelled: rounding, overflow, NaN (except for what C133 says), the solver itself (of which
only the order of the calls at source/core/drivers/lbfgsb_driver.hpp:311-323 is used), the choice of the call-backs in
fit_logreg_lbfgs and the copies of coefficients in get_coef.

C135 to C141 Linear regression around the solvers (`LeastSq`): preprocess_data with the standardize of basic statistics,
prep_matrix_x, scale_warmstart, revert_scaling, the rescaling of lambda in fit_impl, setup_xtx_xty and what Cholesky, CG and
SVD make of the results of LAPACK and of the CG iteration.  Generic over an ordered field with the square root as a
parameter; a division by zero gives no result.  The theorems are about the reals.  Not modelled: rounding, the LAPACK calls
(their results are hypotheses), the CG iteration, QR, the fallback between solvers in fit, the rescaling of the tolerance
for coordinate descent, automatic scaling (get_required_scaling) and the float16 special cases.

C142 to C146 Pairwise distances (`PairDist`, source/core/metrics): the packing, the microkernels of all metrics (a register is
a function of the lane), the five packed loops, the change of the storage order, the operations on the sums afterwards, the
cosine norms, the distances by gemm and syrk and the argument checks.  Generic over an ordered field with the root and the power
as parameters; C143 and C144 are about the reals.  Threads: any order of whole blocks of rows.  Not modelled: rounding, the
intrinsics below the level of lanes, prefetching, failed allocations and the half precision variant of the gemm distance.

C147 to C149 Kernel functions (`KernelFn`, source/core/kernel_functions): the argument checks, the division into blocks of 256 by
256 with the decision whether to use it, kernel_setup, rbf_kernel_internal as the public function calls it, the scalar and the
vector versions of the exp, pow and tanh kernels and fill_upper_triangular, on top of the gemm, syrk and gemm distance of
`PairDist`.  Generic over an ordered field with exp and tanh as parameters; the theorems on values are about the reals.  Threads:
any order of whole blocks.  Dereferencing the null pointer Y is a separate outcome.  Not modelled: rounding, half precision, the
calls with norms supplied by the SVM code and the choice of the vector length.

C150 and C151 Tall, skinny matrices (`TallSkinny`, source/core/utilities/da_syrk.hpp, da_qr.hpp): the choice of the blocks (on top of
`tallSkinny` of `Blocking`), the parallel loop of da_syrk with the private state of the threads and the accumulation of their
buffers, and the layout of the blocks, of tau and of the copied triangles in da_qr.  cblas_syrk is a contract.  Not modelled:
rounding, integer overflow, failed allocations and the telemetry settings.

C152 Blocked QR (`TallSkinny`, da_qr.hpp): the loop over the blocks with the copies of the triangles into R_blocked, the second
factorisation, the copy into R, and da_qr_apply.  geqrf and orgqr are parameters with a contract on the entries LAPACK reads;
their error codes and workspaces and the variant with geqrt3 are not modelled.

C153-C159 Nearest neighbours prediction (`KnnPredict`, nearest_neighbors.cpp): get_weights, most_frequent_element, available_classes,
predict_proba, both predict functions and what they call, and the members of the handle with a flag.  The searches are the arrays they
return; std::set and std::map are sorted lists; cblas_iamax, imatcopy and the mean are contracts; argument checks, the copy of X_test
and failed allocations are not modelled.  A handle operation reads options as set_params does on every set_data.

C160-C165 Kernel principal components (`KernelPca`, kernel_pca.cpp and .hpp): init, compute up to the ridge regression, transform from the
kernel array on, sign_normalize_columns, clamp_near_zero_eigenvalues, and the queries for scores, eigenvalues and dual coefficients.
The kernel functions, syevd, da_random_syevd and the ridge regression are parameters (syevd with its contract); the means and cblas_gemm
are contracts; std::lower_bound outside of its precondition is an outcome of its own.

C166-C172 Principal components (`Pca`, pca.cpp and .hpp): the standardised copy and the matrix for syevd, the total variance, the query for the
scores, transform, inverse_transform, and the flags of the handle through init, compute and the query.  The SVD solvers, da_qr (C150-C152),
da_syrk, cblas_gemm, cblas_gemv, the means, the variances and standardize (C105-C112) are contracts; the sign normalisation, the other queries and
the serialisation are not modelled.

C173-C174 Checks of arrays (`CheckData`, da_utils.cpp and basic_handle.cpp): check_data, check_1D_array, check_2D_array, store_2D_array.  Numbers are NaN, infinities or
rationals of a binary format, adding 1 is rounded to nearest; the texts of the messages and failed allocations are left out.

C175 Signs of the principal components (`Pca/PropsSigns`, pca.cpp:768-790): the loop over the columns of U and rows of VT, with leading dimensions; the arrays do not overlap.

## Findings (code disagrees with the property, or is undefined)

Each is a theorem with a concrete witness.

* C02 `C02_remove_violated`: removing a range that strictly encloses every
  selected index succeeds and removes nothing (`interval_set.hpp`, erase).
* C04 `C04_violated`: looking up a key below the first range steps before `begin()`;
  `C04_enclosing_violated`: a range enclosing an existing one is accepted, after which
  some indices belong to two blocks and others are not found.
* C16 `C16_mesg_char_undefined_when_empty`: `get_mesg_char` reads the front of an
  empty vector when no error was recorded.
* C17 `C17_moved_from_unusable`: a moved-from `da_vector` has capacity 0, so
  `push_back` writes out of bounds and `append` doubles 0 for ever;
  `C17_push_own_element`: `push_back(v[i])` on a full vector reads freed memory.
* C38 `C38_tall_skinny_limit_violated`: the tall-skinny blocking exceeds the
  requested maximum number of blocks.  `C38_tree_blocks_violated`: with 512
  threads and 131372 samples the k-d/ball tree build skips the last 256 samples.
* C41 `C41_nan_undefined`: a NaN reaches a float-to-integer conversion.
* C35: entries of the caller's shuffle array are not validated; the theorem
  assumes they are row indices.
* C32 `C32_minkowski_violated`: radius neighbours with the Minkowski metric and
  p = 2 (its default) compare the squared distance with the unsquared radius.
* C33 `C33_parallel_violated`: the parallel DBSCAN can report one cluster as two;
  `C33_parallel_merges_violated`: it joins clusters that only share a border
  sample.  `duplicate_labels` is written without synchronisation (data race); the
  model makes those stores atomic.
* C18 `C18_failed_put_leaks`: a `put` that fails because of a null pointer has
  already taken its slots, which are lost for the rest of the cache's life.
* C43 `C43_violated`: storing a key that is already cached leaves its old entry in
  the list; evicting that entry removes the key although its new entry is still
  there.  SVR working sets can contain `i` and `i + n`, which share a key.
* C44 `C44_oversized_set_wrong`: `kernel_compute` is wrong for index sets larger than
  the cache when `cache_smaller_than_ws` is unset; the solver's own calls are
  shown to avoid this (`C44_kernel_columns`,
  `C44_warm_start`, `C44_nu_start`).
* C45 `C45_rubbish_accepted`: the reader of real numbers ignores whatever follows the
  number ("12abc" is 12, "2020-01-02" is 2020) and no caller checks the end pointer;
  `C45_exponent_overflow`: the exponent of "1e3000000000" overflows an `int`;
  `C45_leading_zeros`: leading zeros count towards the 17 digits, so
  0.000000000000000012 is read as 0; `C45_empty_option`: an empty decimal or
  exponent character makes the reader pass the end of the string.
* C14 `C14_unknown_type`: a model file with an unknown handle type makes `load_handle`
  call a member function of a null pointer; `C14_negative_count`: a negative number of
  trees makes `std::vector::resize` throw an exception nobody catches;
  `C14_truncated_tree`: the status of reading a search tree's header is
  overwritten (`binary_tree::serialize`), so a file cut there can load "successfully"
  with a null root.
* C46 `C46_violated`: `serialize_user_data` treats a one-column matrix as contiguous;
  a row-major one with padding is saved with wrong numbers (kernel PCA without
  copying, approximate neighbours).
* C10 `C10_violated`: `OptionNumeric::set` skips the NaN checks, so NaN passes every
  range check.
* C47 `C47_violated`: `da_options_set` refreshes the sub-handle before looking the
  option up, so a misspelt option name discards a fitted model.
* C48 `C48_violated`: a negative `*lvalue` passes the size check of the string getter.
* C09 `C09_violated`: a label spelt differently is read back in its registered spelling
  (intended, but not literally the value set).
* C24 `C24_dates_become_numbers`: consequently a column of dates is typed real.
* C23 `C23_uninitialised_pointer_freed`: with headings, a ragged file makes the library
  compare the caller's uninitialised `*ncols` with the heading count and free
  the caller's uninitialised `*a`.
* C25 `C25_nan_unsorted`: a NaN in a feature leaves the other values out of order
  (the introsort still ends with a permutation).
* C26 `C26_all_left`: when all samples of a node satisfy the split, the last one goes
  right (the meeting point of the scans is not tested); `C26_nan_hang`: NaN at both
  ends of a node makes `partition_samples_raw_continuous` loop for ever;
  `C26_stride`: the histogram partitions index `binned_data`, which has leading
  dimension `n_samples`, with `ldx`.
* C51 `C51_violated`: in `float`, 150000 distinct values and 290 bins make
  `compute_thresholds` write 290 thresholds into 289 cells and use 291 bins.
* C50 `C50_violated`: with "node minimum samples" above 2, `split_raw_continuous` counts
  tied samples twice (`++sidx` after a group that was too small), so a child
  can be smaller than the minimum and the split is scored with wrong class counts.
* C53 `C53_violated`: in a bootstrap sample `split_raw_onevall` counts each drawn
  sample once on the left and with its frequency in the total, so a category
  shared by every sample of the node can be accepted as a split.
* C28 `C28_violated`, `C28_hist_onevall`: with histograms a one-vs-all split stores the
  bin number, and `predict` compares it with the rounded value, so training samples
  reach the wrong leaf; `C28_bootstrap`: the meeting point of the partition (C26) on a
  category shared by the whole node (C53); `C28_threshold_zero`: "feature threshold" 0
  lets a split fall between equal values; `C28_midpoint`: a midpoint rounded to the lower value
  is tested with `<=` in training and with `<` in prediction; `C28_padding`: C26_stride.
* C52 `C52_violated`: `predict_proba` treats one-vs-all nodes as thresholds, with the
  threshold 0 that a new node has.
* C55 `C55_depth_zero`: "maximum depth" 0 reports 0 leaves; `C55_second_fit`: `depth` is
  not reset when a tree is fitted again.
* C56 `C56_class_overflow`: `decision_forest` does not override `refresh()`, so
  `da_forest_set_training_data` leaves `model_trained` set; `predict` with fewer classes
  then increments counts outside the array; `C56_silent`: with another number of features
  every tree's error is ignored and class 0 is returned; `C56_null_tree`: a fit that fails
  in `bins` has already resized the vector of trees.
* C29 `C29_nan`: a NaN at the root of a full heap blocks all later insertions.
* C30, C31 `C30_kd_violated`, `C31_kd_violated`, `C31_ball_violated`, `C30_norms_exact`: with the
  metric `euclidean_gemm`, `A_norms[i]` is read for every query row `i`, outside the
  array when there are more queries than samples (binary_tree.cpp 351 and 453).
* C30 `C30_ball_violated`: with more than 256 threads the root of a ball tree can miss
  samples (the blocks of C38), and a radius search near them finds nothing.
* C05 `C05_row_loop_violated`: a block of rows below columns that already share their last
  block closes a cycle of `next` pointers; the following call never ends.
  `C05_row_pieces_violated`, `C05_uneven_rows_violated`: rows in pieces below a shared block,
  and pieces with different numbers of rows, give complete stores with cells that are
  read through a null pointer.  `C05_refused_rows_violated`: a refused piece reduces `m`
  (line 604) although it had not increased it.
* C06 `C06_incomplete_violated`: `set_element` and `get_element` do not look at incomplete rows.
* C07 `C07_endless_violated`: `extract_column` follows the cycle of C05.
* C08 `C08_row_major_violated`, `C08_overrun_violated`: row-major `extract_selection` adds the
  selected rows once per column interval, and places column intervals with the leading
  dimension of the user inside its temporary array.  (In column-major order a leading
  dimension below the total number of selected rows is not refused if it is at least the
  width of each interval.)
* C40 `C40_moved_label_violated`, `C40_replaced_label_violated`, `C40_hconcat_violated`:
  `label_column` keeps the first entry of `name_to_index`, and never removes one;
  `horizontal_concat` leaves `index_to_name` too short.
* C20 `C20_violated`: words end at a NUL inside a cell.
* C21 `C21_violated`, `C21_mark_cut_violated`: `CHECK_FOR_BOM` is repeated at every chunk until the
  first line has ended, and reads outside chunks shorter than three bytes.
  `C21_capacity_violated`, `C58_violated`: `end_line` fills short lines without making space, so the
  buffers can be exhausted in the chunk; `end_field` ignores that there is no room for the NUL.
  `C21_skip_empty_violated`: with "skip empty lines" the tokeniser can step back over the
  begin of the chunk.
* C22 `C22_violated`, `C22_failed_read_violated`: `parse_file` discards the status of
  `tokenize_all_rows`; an unterminated quote, an exhausted buffer or a failed read give success with
  the rest of the file missing.
* C59 `C59_violated`: `parser_set_skipfirstnrows` ignores 0; `C59_report_violated`: `skipped_lines`
  is never cleared.
* C60 `C60_violated`: escapes are not seen in skipped rows.
* C61 `C61_violated`: behind a comment line that ends in a lone carriage return the first delimiter of
  the next line is lost.
* C64 `C64_violated`: numbers between 2^-25 and 2^-24 become 0 instead of 2^-24.
* C67 `C67_violated`: the Frobenius norm leaves NaN elements out.
* C69 `C69_working_set_nu_violated`: `nusvm::outer_wss` stops as soon as one class is used up; the
  rest of `ws_indexes` keeps old contents (zeros in the first iteration), so the working set
  contains repetitions.
* C70 `C70_equality_nu_violated`: with such a working set nu-SVC leaves the set of feasible points:
  the sum of `y * alpha` goes from 0 to -5/7 in the first iteration on eight samples.
* C71 `C71_objective_nu_violated`: and the dual objective can grow (9/2 to 18).
* C72 `C72_optimal_c_violated`, `C72_optimal_nu_violated`: with a working set of two (three samples,
  or `max_ws_size` 2) SVC keeps one sample and adds one of the growing kind only, so it can stop
  with a violation of 10; nu-SVC does so with a working set of four.
* C73 `C73_warm_svr_violated`, `C73_warm_nusvc_violated`: when all coefficients are zero,
  `recompute_gradient` leaves out the width of the tube (epsilon-SVR) and subtracts the labels
  (nu-SVC). With mixed precision and all targets inside the tube SVR then moves away from the
  optimal solution zero.
* C73 `C73_box_violated`: `C` is rounded to the lower precision for the first solve; 0.3f becomes
  0.30005, so multipliers at the bound are outside the box of the second solve. C > 65519 becomes
  infinity in half precision.
* C75 `C75_start_nusvc_violated`: nu is not compared with the sizes of the classes; with one
  positive and three negative samples and nu = 1 the start has `sum y * alpha = -1`.
* C77 `C77_between_violated`: the labels 1, 1, ..., 1 pass set_data (only the multiclass case looks
  for empty classes); no entry can shrink, so the bias is the mean of a gradient and the largest
  finite number.
* C77 `C77_nu_between_violated`: nu-SVC with nu = 1 on balanced classes (or any nu at the limit of a
  class) leaves every multiplier at the bound; both class biases contain the sentinel, the scale
  becomes about 1e308 / 2, and no multiplier is above the threshold: the model has no support
  vectors.
* C78 `C78_refit_violated`: calling compute twice on a multiclass handle: n_support_per_class is
  never reset, so the lists of support vectors of a classifier get trailing zeros, sample 0 of the
  classifier is counted for the wrong class, and support_coefficients is written beyond its end.
* C78 `C78_counts_violated`: the counts per class of a binary problem double with the second fit.
* C78 `C78_vectors_violated`: support_vectors is read with stride n_samples instead of the leading
  dimension of the data.
* C79 `C79_ovr_violated`: with equal votes predict takes the smallest class, decision_function ranks
  by the sum of the decision values; the two disagree.
* C80 `C80_released_violated`: data stored by rows, set_data, then a set_data that fails: the copy of
  the data is released, loadingdone stays true, and compute reads the released memory.
* C80 `C80_predict_violated`: a failed set_data stores the new number of features; predict then
  accepts that number and reads the support vectors beyond their end (or, with fewer features, uses
  only a part of them: `C80_stale_violated`).
* C80 `C80_rbf_violated`: the squared norms of the training samples are added to those of the
  previous fit: fit number k uses k times the norm, so fitting twice (for example with another C)
  gives another model than fitting a new handle.
* C81 `C81_binary_violated`: with two classes predict_proba still runs the iterative coupling, started
  at 1/2 with tolerance 0.005/2; the result differs from the logistic value by up to 0.005, and all
  values within 0.005 of 1/2 become exactly 1/2.
* C82 `C82_status_violated`: compute overwrites the status of compute_probabilities with that of the
  training, so with more folds than samples compute reports success and predict_proba uses zeros or
  the parameters of an earlier fit.
* C82 `C82_one_fold`: the option allows one fold; then every training set is empty, all decision
  values are 0 and the probabilities do not depend on the sample.
* C83 `C83_float_violated`, `C83_double_violated`: search_cells picks the index entry with rounded
  arithmetic and searches only within its range; a point just below a site can get the cell above
  (sites 0, 105, 210, point 105 - 2^-46 in double).
* C83 `C83_range_violated`: the conversion of (x - x_0) * inv to an integer happens before the clamp
  and is undefined for points far outside the sites.
* C84 `C84_ld_violated`: set_values_1d and the splines ignore ldy, so values with a leading dimension
  above the tight one are read from the wrong places although the call succeeds.
* C84 `C84_orders_violated`: evaluate returns the derivative blocks in increasing order without
  repetitions, whatever the order and repetitions in the request.
* C85 `C85_null_violated`: select_model stores an unknown model before refusing it; every later call
  (also setting an option) dereferences the null pointer `interp`.
* C85 `C85_dim_violated`, `C85_bc_violated`: derivatives of another dimension than the values, or
  boundary conditions set before values of a larger dimension, make interpolate read outside arrays.
* C85 `C85_stale_violated`: sites refused for their order leave their differences in `dx`; uniform
  sites set next call `dx.resize(n - 1, dx_val)`, which keeps them, so cells and splines are wrong.
* C85 `C85_order_violated`, `C85_deriv_violated`: a refused set_values, or derivatives given in another
  storage order, change the storage order with which the earlier values are read.
* C85 `C85_failed_violated`: sites refused for their order fix the number of sites for good.
* C86 `C86_violated`: in elkan_iteration (both parallel loops) `block_size` is firstprivate and only
  assigned for the last block.  Under `schedule(dynamic)` OpenMP 5 lets a thread run a lower block after
  the last one (LLVM's runtime does so when stealing); that block is then cut to the size of the last
  one and the rest of its samples keep stale labels and are not counted.  Lloyd resets the size.
* C89 `C89_violated`: on ties the scalar kernel picks the lowest centre, a kernel with w lanes the lowest
  j mod w; the library's result for the same data depends on the processor (seen also in the centres).
* C90 `C90_first_violated`: init_macqueen_block reads the first distance at workcs1[i - block_index] instead of
  workcs1[index] (kmeans_macqueen.hpp:137), so only the first sample of a block is compared with centre 0.
* C90 `C90_violated`: the norms in workc1 are those of the initial centres; init_macqueen replaces the centres
  by means but not the norms, and a cluster that no sample enters or leaves keeps the old norm to the end.
* C91 `C91_violated`: for spherical clustering the cluster a sample is taken from gets the direction of
  count * centre - sample, but the centre has been scaled to length one, so this is not the direction of the
  remaining samples (kmeans.cpp:1219-1270).
* C92 `C92_full_violated`, C94 `C94_violated`: the labelling after the last iteration can leave a cluster without
  samples; neither `split` nor `error` looks at it (kmeans.cpp:1036-1045).
* C92 `C92_elkan_violated`: after a split the bounds are reset but not the half distances between centres, so the next
  iteration skips centres it should compare; if it is the last one the labels are not nearest (kmeans.cpp:1317-1321).
* C92 `C92_nearest_violated`: for spherical clustering the centre left wrong by a split (C91) can pass the test for
  labels that stay, and the labels given back are not nearest.
* C93 `C93_violated`: with fewer different samples than clusters every iteration splits again, and an iteration that
  splits is not tested for convergence, so the run always takes max_iter iterations and then ends with an empty cluster.
* C95 `C95_violated`, C99 `C99_violated`: for `scale only` the dual gap multiplies the penalties by the number of samples
  although the data are already scaled (linmod_nln_optim.cpp:971-1033): it can be zero away from the minimum and is not
  zero at the minimum, so such fits end by slow progress or the iteration limit, whose warnings fit_linreg_coord clears.
* C96 `C96_violated`, C98 `C98_violated`: the GLMnet step updates the residual at the next evaluation, so the gap after a
  cycle uses the residual from before the last change; a run can stop with success short of the minimum.
* C96 `C96_sklearn_violated`, C97 `C97_violated`, C98 `C98_sklearn_violated`: the scikit-learn step updates the residual
  itself; when the solver zeroes a step below 2 eps (coord.hpp:932-939) the residual keeps it.  With large features the
  objective can grow, or a fit can end with success and coefficient zero.
* C100 `C100_violated`: `coord restart` = 0 is allowed and documented but gives a remainder by zero (coord.hpp:1033).
* C101: a coordinate at the skip limit is not left deactivated, as the comment says, but evaluated in every cycle.
* C102 `C102_violated`: a failure of the step call-back is overwritten by the next call and never reported.
* C104 `C104_violated`: `scale only`, a zero (or constant, with an intercept) feature and no quadratic penalty: 0/0.
* C110 `C110_between_violated`: da_harmonic_mean leaves zeros out of the sum of inverses but counts them, so {0, 1} gives 2.
* C108: da_kurtosis of a constant line is -3, below the least value -2 of any other line.
* C111 `C111_documented_violated`: with given shifts and scales of zero da_standardize multiplies the mean square by the number of results instead of the number of observations; a 4 x 1 matrix of 2 with shift 1 and dof = 1 gets the scale 1 instead of 2. For one result and dof = 0 it divides by zero (`C111_given_shifts`).
* C112 `C112_undo_violated`: undoing the standardization of one constant column with dof = 0 runs into that division by zero.
* C113 `C113_success_violated`: cov_corr_matrix ignores the status of da_syrk. If the temporary blocks cannot be allocated, da_covariance_matrix reports success and the caller's array is not written (8192 rows, one column, two threads).
* C113 `C113_errors`: the documentation allows n_rows = 1, the code refuses it with da_status_invalid_array_dimension.
* C116 `C116_one_dimension_violated`: in one dimension the arena of 2 n + 64 (at least 256) nodes can be too small, e.g. for 81 samples in nine piles of nine equal ones; the code then falls back to large leaves. In two and three dimensions this cannot happen.
* C118 `C118_slots_given_twice`, `C118_slots_skipped`: the reservation by atomic add and, on failure, atomic subtract is not safe: between the two another task can be given slots beyond those that are accounted for afterwards, so that two nodes share a slot or a node lies above num_nodes and is skipped by the traversal. This needs a full arena and several tasks, hence one dimension.
* C125 `C125_numbering_violated`: train does not reset n_index, so after train, add, train, add the rows of the new index are numbered from the number of rows of the old one.
* C126 `C126_overflow_violated`: in the coarse search a centroid whose distance overflows is not put on the heap; what the heap's index array held before (zeros, or the centroids of an earlier query) is used instead, and the same list can be recorded twice for a query, beyond its row of the table.
* C127 `C127_zero_block_violated`, `C127_square_violated`: with 2 n_features + 1 above the budget (524288 features, double, 64-bit integers) both block sizes are 0 and blocking_scheme divides by 0; with 32-bit integers n_features * n_features overflows from about 46330 features on.
* C128 `C128_failed_training_violated`: a train that fails because n_list > n_samples has already replaced n_list, and the handle still counts as trained; the next add goes beyond the centroids. `C128_storage_order_violated`: train reads the storage order option again and reads the matrix passed before in the new order, beyond its end.
* C130 `C130_penalty_violated`: with a reference class and three classes or more, regfun and reggrd get nfeat entries of the coefficients, so that only those of class 0 are penalized.
* C131 `C131_new_gradient_violated`: objgrd_logistic_ssc with xnew adds exp(-max) to the sum of exponentials, as if there were a reference class. The L-BFGS-B driver passes xnew = 0, so fits are not affected.
* C132 `C132_negative_scores_violated`: with a set of coefficients per class the search for the largest score starts from 0, so a sample with only negative scores is put in class 0.
* C133 `C133_underflow_violated`: objfun_logistic_ssc starts the maximum from 0 as well; when all scores of a sample are below about -745 (double) all exponentials are 0 and the objective is infinite.
* C136 `C136_constant_feature_violated`: with scaling "standardize" a feature that is the same in all samples has scale 0; the data are divided by 1 instead, but revert_scaling divides by 0, so that its coefficient and the intercept become NaN or infinite.
* C136 `C136_constant_response_violated`: with "scale only" a constant response (or zero response without an intercept) is divided by 0.
* C138 `C138_ridge_violated`: for alpha = 0 lambda is divided by the number of samples, so ridge regression does not minimise the documented cost function but the one with the sum of the squares. `C138_limit_violated`: with "scale only" ridge regression divides lambda by the number of samples and the elastic net by the deviation of the response, contrary to the documented relation.
* C140 `C140_violated`, `C140_limit_violated`: fit_linreg_svd compares S[i] with max(S[0], 1) after S[0] has been replaced by its inverse. Matrices with a largest singular value below 1 lose directions, and small singular values beside large ones are kept.
* C144 `C144_cosine_violated`, `C144_self_zero`: LoopFive_packed calls the operation on the sums once for every block of NC = 1024 columns, but CosinePostOp indexes the norms of Y and the diagonal from the beginning for each block. With more than 1024 samples in the second matrix da_pairwise_distances divides by the norms of other samples, and for one matrix it reports distance 0 between samples j and 1024 + j while the diagonal beyond 1024 is not set.
* C147 `C147_linear_violated`, `C147_crash`: the divided path of kernel_setup calls gemm on `Y + Y_block_offset` although Y is null when only one matrix is given. The linear, polynomial and sigmoid kernels of one matrix with more than 256 samples dereference a null pointer whenever more than one thread is available; kernel PCA calls them this way.
* C148 `C148_rbf_violated`, `C148_blocked`: the divided path of rbf_kernel_internal passes X_is_Y for every block, so euclidean_gemm_distance multiplies the block of X with itself instead of with the other block and fills only an upper triangle. For one matrix with more than 256 samples and more than one thread the entries off the diagonal blocks are wrong, may exceed 1 and depend on what the array held before.
* C151 `C151_violated`, `C151_overflow`: da_qr requires blocks at least as high as wide but only asks tall_skinny_blocking_scheme for at least 1024 rows. With more than 1024 columns the blocks can be shorter, e.g. 4072 by 1025 with four threads: the last block then writes two reflectors behind the end of tau, and the triangle of the first block is copied in part from the second one. PCA reaches this with the option to store U; without it dgeqrt3 refuses the block and the call fails.
* C154 get_weights (nearest_neighbors.cpp:1028): a neighbour at distance 0 gets the weight 1, one at distance 0.1 the weight 10, so with weights = distance a
  query that coincides with a training sample can be given the class of another one.
* C155 predict_proba_compute_rnn (nearest_neighbors.cpp:1369, 1421): `proba[classes[manual_label_index] + j_local] = 1.0` uses the label as a position.  With labels
  1, 2 and the outlier label 1 class 2 gets probability 1 and label 2 is predicted; with labels -1, 1 the row of the query before is overwritten; with
  labels 5, 7 the store is outside of the array of the user.
* C156 set_labels (nearest_neighbors.cpp:518) does not reset classes_computed, most_frequent_label_computed and manual_outlier_label_checked: after new labels the
  predictions still use the classes of the first ones.  Likewise set_targets does not reset mean_target_computed, and set_params (305) changes manual_label without resetting
  manual_outlier_label_checked.
* C159 predict_targets_rnn (nearest_neighbors.cpp:1814): the maximum goes up to `end() - 1`, but the vector has n_queries elements; when the last query has more neighbours
  than all others the loop writes past the end of pred_targets.
* C163 compute (kernel_pca.cpp:317): inverse_fitted is set (706) but only init resets it.  After compute with 'fit inverse transform' = 1 and again with 0 and another number
  of components, inverse_transform and the query for the dual coefficients go ahead and combine the new components with the dual coefficients of the old model.
* C164 compute, get_result (kernel_pca.cpp:396, 530, 139): compute does not reset model_trained.  When it fails at clamp_near_zero_eigenvalues on a handle that has a model, eigenvalues
  has n_samples entries while n_components is the old one, and the query for the eigenvalues writes n_samples entries to an array of n_components.
* C165 compute (kernel_pca.cpp:396, 540): the second compute with the randomized solver and fewer components leaves eigenvalues of the first model behind the new ones, and
  std::lower_bound is applied to a vector that is not descending, so zero eigenvalues may be kept although 'remove zero eig' is set.
* C168/C169 inverse_transform (pca.cpp:1036, 1041; statistical_utilities.cpp:102): standardize takes an array of shifts that are all 0 for a request to compute them.  When the training
  data have means exactly 0, inverse_transform adds the means of its own product, and writes them to column_means of the model, so that later calls of transform are wrong too.
* C170 compute (pca.cpp:365-370): 'biased' sets dof = -1, nothing sets it back (not even init).  A later unbiased compute with the correlation method divides the variances by n and
  everything else by n - 1; the total variance is then p n / (n - 1) instead of p.
* C171 compute (pca.cpp:536, 758; da_qr.hpp:399-404): qr is reset only by init.  compute with gesdd on n > 1.2 p, then with the randomized solver and 'store u': da_qr_apply is called with
  n_blocks = 0 and stores into an empty vector.
* C171 init (pca.cpp:253-257): on a handle with row-major data a refused set_data has already freed the data and set A to null, initdone stays true, and compute reads from the null pointer.
* C172 compute, get_result (pca.cpp:342, 359, 104-118): a compute refused because of syevd with 'store u' has already set store_U and leaves model_trained, so the query for the scores
  copies n * n_components entries from an empty u.
* C173 check_data (da_utils.cpp:195-196, 209-210): `X == X + 1`, a workaround for a compiler bug, holds for every number of magnitude 2^prec and more (2^53 in double, 2^24 in single
  precision, but for the ties), and for infinities.  With 'check data' set, or in da_check_data_s, a matrix with the entry 1e8 in single precision is refused as containing a NaN.
