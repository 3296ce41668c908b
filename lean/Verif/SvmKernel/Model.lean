import Verif.Cache.Model

/-
Model of `base_svm<T>::kernel_compute` (`source/core/svm/base_svm.cpp` 555-650),
the routine that collects the kernel columns of a set of samples, taking them from
the LRU cache where possible.
-/
namespace Verif.SvmKernel

open Verif.Cache

variable {R : Type}

/-- What an element of `ptr_kernel_col` points to: a column of the cache or a
column of `kernel_temp`. -/
inductive Ptr where
  | slot (s : Nat)
  | temp (j : Nat)
deriving DecidableEq, Repr

/-- The data `kernel_compute` works on: the cache, the columns of `kernel_temp`
(`none` = not initialised), `rhs_kernel_matrix`, `ptr_kernel_col` and the first
`idx_to_compute_count` entries of `idx_to_compute`. -/
structure KState (R : Type) where
  cache : Cache R
  temp : Nat → Option R
  rhs : Nat
  ptrs : Nat → Option Ptr
  todo : List Nat

/-- First loop (base_svm.cpp 573-600) from iteration `i` on; the list holds the
remaining values `idx[i] % n`.  `active` is `cache.active_`, `small` is
`cache_smaller_than_ws`, `ncols` the number of columns of `kernel_temp`; a column
index that is not below it is undefined behaviour (`none`). -/
def lookup (active small : Bool) (ncols : Nat) :
    List Int → Nat → KState R → Option (KState R)
  | [], _, s => some s
  | key :: rest, i, s =>
    if active then
      match get s.cache key with
      | none => none
      | some (c, .hit _ sl r) =>
        if small then
          if 0 < s.rhs ∧ s.rhs - 1 < ncols then
            lookup active small ncols rest (i + 1)
              { s with
                cache := c
                temp := fun j => if j = s.rhs - 1 then some r else s.temp j
                ptrs := fun j => if j = i then some (.temp (s.rhs - 1)) else s.ptrs j
                rhs := s.rhs - 1 }
          else none
        else
          lookup active small ncols rest (i + 1)
            { s with
              cache := c
              ptrs := fun j => if j = i then some (.slot sl) else s.ptrs j }
      | some (c, _) =>
        lookup active small ncols rest (i + 1) { s with cache := c, todo := s.todo ++ [i] }
    else lookup active small ncols rest (i + 1) { s with todo := s.todo ++ [i] }

/-- The kernel evaluation (base_svm.cpp 602-628): the first `keys.length` columns of
`kernel_temp` receive the kernel columns of the given samples.  The gathering of
the rows in `X_temp` and the arithmetic of `kernel_f` are not modelled: `K key` is
the column the kernel function yields for sample `key`. -/
def fillTemp (K : Int → R) (keys : List Int) (temp : Nat → Option R) : Nat → Option R :=
  fun j => match keys[j]? with
    | some k => some (K k)
    | none => temp j

/-- Result pointers of the computed columns (base_svm.cpp 638, 645). -/
def setPtrs : List Nat → Nat → (Nat → Option Ptr) → Nat → Option Ptr
  | [], _, f => f
  | cur :: rest, i, f => setPtrs rest (i + 1) (fun j => if j = cur then some (.temp i) else f j)

/-- `kernel_compute` (base_svm.cpp 555-650); `keys` are the values `idx[i] % n`.
Reading a column of `kernel_temp` that was never written would be `none` in `d`;
it cannot happen because `put` reads the columns just computed. -/
def kernelCompute (K : Int → R) (small : Bool) (ncols : Nat) (keys : List Int) (c : Cache R)
    (temp : Nat → Option R) : Option (KState R) :=
  let active : Bool := decide (0 < c.capacity)
  match lookup active small ncols keys 0
      { cache := c, temp, rhs := keys.length, ptrs := fun _ => none, todo := [] } with
  | none => none
  | some s =>
    if s.todo.length = 0 then some s
    else if s.todo.length ≤ ncols then
      let tkeys := s.todo.filterMap fun i => keys[i]?
      let temp' := fillTemp K tkeys s.temp
      let ptrs' := setPtrs s.todo 0 s.ptrs
      if active then
        some { s with
          cache := (put s.cache tkeys (fun i => (temp' i).getD (K 0))).1
          temp := temp'
          ptrs := ptrs' }
      else some { s with temp := temp', ptrs := ptrs' }
    else none

/-- The column `ptr_kernel_col[i]` points to when the function has returned. -/
def KState.column (s : KState R) (i : Nat) : Option R :=
  match s.ptrs i with
  | none => none
  | some (.slot sl) => s.cache.mem sl
  | some (.temp j) => s.temp j

/-- `cache_smaller_than_ws` as set in `compute_impl` (base_svm.cpp 219-222). -/
def smallFlag (cap ws : Nat) : Bool := decide (0 < cap ∧ cap < ws)

/-- Successive calls with the index sets `calls` on one cache, each with a
`kernel_temp` of `ncols` columns whose old contents are arbitrary (`temps`).
Returns the columns every call delivered. -/
def session (K : Int → R) (small : Bool) (ncols : Nat) (temps : Nat → Nat → Option R) :
    List (List Int) → Cache R → Option (Cache R × List (List (Option R)))
  | [], c => some (c, [])
  | keys :: rest, c =>
    match kernelCompute K small ncols keys c (temps rest.length) with
    | none => none
    | some s =>
      match session K small ncols temps rest s.cache with
      | none => none
      | some (c', out) => some (c', ((List.range keys.length).map s.column) :: out)

end Verif.SvmKernel
