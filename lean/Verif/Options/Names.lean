import Verif.Options.Model

/-!
# The names the library registers

Every first argument of an `OptionNumeric` or `OptionString` constructor under `source/core`, by file.
-/

namespace Verif.Options

/-- The bytes of an ASCII literal. -/
def bytes (s : String) : Str := s.toList.map fun c => UInt8.ofNat c.toNat

/-- approximate_neighbors/approximate_neighbors_options.hpp -/
def names_approximate_neighbors_options : List String :=
  ["number of neighbors", "n_list", "n_probe", "k-means_iter", "seed", "train fraction",
  "algorithm", "metric"]

/-- clustering/dbscan/dbscan_options.hpp -/
def names_dbscan_options : List String :=
  ["min samples", "leaf size", "algorithm", "metric", "eps", "power"]

/-- clustering/kmeans/kmeans_options.hpp -/
def names_kmeans_options : List String :=
  ["n_clusters", "n_init", "max_iter", "low precision max_iter", "seed", "afk-mc2 samples",
  "initialization method", "algorithm", "mixed precision", "empty clusters", "distance",
  "normalize data", "convergence tolerance", "low precision convergence tolerance"]

/-- csv/csv_options.hpp -/
def names_csv_options : List String :=
  ["delimiter", "thousands", "decimal", "comment", "quote character", "escape character",
  "line terminator", "scientific notation character", "skip rows", "storage order",
  "double quote", "whitespace delimiter", "row start", "skip empty lines",
  "skip initial space", "skip footer", "warn for missing data", "use header row", "datatype",
  "datastore precision", "integers as floats"]

/-- decision_forest/forest/decision_forest_options.hpp -/
def names_decision_forest_options : List String :=
  ["seed", "number of trees", "maximum depth", "node minimum samples", "block size",
  "bootstrap", "bootstrap samples factor", "features selection", "maximum features",
  "proportion features", "scoring function", "feature threshold", "minimum split score",
  "minimum impurity decrease", "histogram", "maximum bins", "category split strategy",
  "maximum tree threads"]

/-- decision_forest/tree/decision_tree_options.hpp -/
def names_decision_tree_options : List String :=
  ["scoring function", "predict probabilities", "maximum depth", "seed", "maximum features",
  "node minimum samples", "feature threshold", "minimum split score",
  "minimum impurity decrease", "detect categorical data", "maximum categories",
  "category tolerance", "category split strategy", "histogram", "maximum bins"]

/-- dimension_reduction/tsne/tsne_options.hpp -/
def names_tsne_options : List String :=
  ["n_components", "max_iter", "seed", "n_iter_without_progress", "perplexity",
  "learning rate", "early exaggeration", "min_grad_norm", "theta", "low precision max_iter",
  "low precision min_grad_norm", "init", "mixed precision"]

/-- factorization/kernel_pca/kernel_pca_options.hpp -/
def names_kernel_pca_options : List String :=
  ["n_components", "degree", "fit inverse transform", "remove zero eig", "copy data",
  "eigensolver", "n_oversamples", "power iterations", "power normalization", "seed", "gamma",
  "coef0", "alpha", "kernel"]

/-- factorization/pca/pca_options.hpp -/
def names_pca_options : List String :=
  ["n_components", "store u", "whiten", "pca method", "degrees of freedom", "svd solver",
  "n_oversamples", "power iterations", "power normalization", "seed"]

/-- interpolation/interpolation_options.hpp -/
def names_interpolation_options : List String :=
  ["cubic spline type"]

/-- linear_model/linmod_options.hpp -/
def names_linmod_options : List String :=
  ["print level", "intercept", "optim iteration limit", "low precision iteration limit",
  "optim coord skip min", "optim coord skip max", "debug", "optim time limit", "alpha",
  "lambda", "optim convergence tol", "low precision convergence tol", "optim progress factor",
  "optim dual gap tol", "optim method", "print options", "mixed precision", "scaling",
  "logistic constraint"]

/-- nearest_neighbors/nearest_neighbors_options.hpp -/
def names_nearest_neighbors_options : List String :=
  ["number of neighbors", "leaf size", "outlier label", "minkowski parameter", "radius",
  "outlier target", "algorithm", "metric", "weights", "outlier handling"]

/-- optimization/optimization_options.hpp -/
def names_optimization_options : List String :=
  ["coord skip min", "coord skip max", "coord restart", "coord iteration limit",
  "lbfgsb iteration limit", "lbfgsb memory limit", "monitoring frequency", "print level",
  "debug", "ralfit iteration limit", "derivative test tol", "finite differences step",
  "time limit", "infinite bound size", "lbfgsb convergence tol", "lbfgsb progress factor",
  "coord convergence tol", "coord skip tol", "coord optimality tol",
  "ralfit convergence abs tol fun", "ralfit convergence rel tol fun",
  "ralfit convergence abs tol grd", "ralfit convergence rel tol grd",
  "ralfit convergence step size", "regularization term", "print options", "check derivatives",
  "optim method", "ralfit model", "ralfit nlls method", "ralfit globalization method",
  "regularization power"]

/-- svm/svm_options.hpp -/
def names_svm_options : List String :=
  ["degree", "max_iter", "max_ws_size", "n_folds", "seed", "predict probabilities",
  "low precision max_iter", "c", "epsilon", "nu", "tolerance", "gamma", "coef0", "tau",
  "cache size", "low precision convergence tolerance", "kernel", "mixed precision"]

/-- utilities/basic_handle_options.hpp -/
def names_basic_handle_options : List String :=
  ["storage order", "check data"]

/-- All of them. -/
def libraryNames : List String :=
  names_approximate_neighbors_options ++
  names_dbscan_options ++
  names_kmeans_options ++
  names_csv_options ++
  names_decision_forest_options ++
  names_decision_tree_options ++
  names_tsne_options ++
  names_kernel_pca_options ++
  names_pca_options ++
  names_interpolation_options ++
  names_linmod_options ++
  names_nearest_neighbors_options ++
  names_optimization_options ++
  names_svm_options ++
  names_basic_handle_options

end Verif.Options
