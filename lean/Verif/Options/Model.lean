/-!
# Model of the option registry

`options.hpp` (under `source/core/utilities`) and the functions of `options_public.cpp` and
`da_handle.cpp` through which a user reads and writes options.

* Strings are lists of bytes.  `[[:space:]]` and `::tolower` are those of the "C" locale, and `^`
  and `$` match only at the two ends of the string, as in libstdc++ (its `regex` is not multiline
  unless asked to be).
* A real is its IEEE bit pattern; comparisons decode it.  Since every finite value of one format is
  an integer multiple of its smallest positive value, a finite value is given by that integer.
* `da_int` is `Int`: no arithmetic is done on option values.
* The `unordered_map` from names to options is a list searched from the front, never holding two
  entries of one name (`register_opt` refuses a second one).
* Descriptions, default values kept for printing, messages and printing are left out.
-/

namespace Verif.Options

abbrev Str := List UInt8

/-! ## Tidying of strings -/

/-- The class `[[:space:]]`: blank, tab, newline, vertical tab, form feed, carriage return. -/
def isSpace (c : UInt8) : Bool := c == 32 || (9 ≤ c && c ≤ 13)

/-- `::tolower` on one byte. -/
def lower (c : UInt8) : UInt8 := if 65 ≤ c && c ≤ 90 then c + 32 else c

/-- `regex_replace(str, "^[[:space:]]+|[[:space:]]+$", "")` (options.hpp 197, 199). -/
def trim (s : Str) : Str := ((s.dropWhile isSpace).reverse.dropWhile isSpace).reverse

/-- `regex_replace(str, "[[:space:]]+", " ")` (options.hpp 198, 200); `run` says whether the
character before was part of a run already replaced. -/
def squeeze (run : Bool) : Str → Str
  | [] => []
  | c :: s =>
    if isSpace c then (if run then squeeze true s else 32 :: squeeze true s)
    else c :: squeeze false s

/-- `OptionUtils::prep_str` (options.hpp 192-202). -/
def prepStr (s : Str) : Str := (squeeze false (trim s)).map lower

/-! ## Numbers -/

/-- A decoded IEEE number.  `fin k` stands for `k` times the smallest positive number of the
format. -/
inductive FP
  | nan | ninf | pinf
  | fin (k : Int)
deriving DecidableEq, Repr

/-- Decoding of a bit pattern with `eb` exponent and `mb` fraction bits. -/
def decode (eb mb : Nat) (b : Nat) : FP :=
  if b / 2 ^ mb % 2 ^ eb = 2 ^ eb - 1 then
    if b % 2 ^ mb = 0 then (if b / 2 ^ (mb + eb) % 2 = 1 then .ninf else .pinf) else .nan
  else
    let k : Nat :=
      if b / 2 ^ mb % 2 ^ eb = 0 then b % 2 ^ mb
      else (2 ^ mb + b % 2 ^ mb) * 2 ^ (b / 2 ^ mb % 2 ^ eb - 1)
    .fin (if b / 2 ^ (mb + eb) % 2 = 1 then -(k : Int) else k)

/-- `<` on reals: false as soon as one side is not a number. -/
def FP.lt : FP → FP → Bool
  | .nan, _ | _, .nan => false
  | .ninf, .ninf => false
  | .ninf, _ => true
  | _, .ninf => false
  | .pinf, _ => false
  | _, .pinf => true
  | .fin a, .fin b => decide (a < b)

/-- `<=` on reals. -/
def FP.le : FP → FP → Bool
  | .nan, _ | _, .nan => false
  | .ninf, _ => true
  | _, .ninf => false
  | _, .pinf => true
  | .pinf, _ => false
  | .fin a, .fin b => decide (a ≤ b)

/-- What the code uses of a numeric type `T`. -/
class Ops (α : Type) where
  lt : α → α → Bool
  le : α → α → Bool
  /-- `has_quiet_NaN` and `isnan`. -/
  isNaN : α → Bool

instance : Ops Int := ⟨fun a b => decide (a < b), fun a b => decide (a ≤ b), fun _ => false⟩

abbrev F32 := BitVec 32
abbrev F64 := BitVec 64

def F32.dec (x : F32) : FP := decode 8 23 x.toNat
def F64.dec (x : F64) : FP := decode 11 52 x.toNat

instance : Ops F32 :=
  ⟨fun a b => (F32.dec a).lt (F32.dec b), fun a b => (F32.dec a).le (F32.dec b),
    fun a => F32.dec a == .nan⟩
instance : Ops F64 :=
  ⟨fun a b => (F64.dec a).lt (F64.dec b), fun a b => (F64.dec a).le (F64.dec b),
    fun a => F64.dec a == .nan⟩

/-! ## Options -/

/-- `lbound_t` (options.hpp 167). -/
inductive LB | minf | greaterthan | greaterequal
deriving DecidableEq, Repr

/-- `ubound_t` (options.hpp 177). -/
inductive UB | pinf | lessthan | lessequal
deriving DecidableEq, Repr

/-- `setby_t` (options.hpp 169). -/
inductive By | dflt | user | solver
deriving DecidableEq, Repr

/-- Return values; `ub` is undefined behaviour, `throws` an exception nobody catches. -/
inductive Status
  | ok | locked | notFound | wrongType | invalidValue | invalidBounds | invalidInput
  | notInitialized | ub | throws
deriving DecidableEq, Repr

/-- The members of `OptionNumeric<T>` that matter (options.hpp 314-328). -/
structure Num (α : Type) where
  value : α
  lower : α
  lbound : LB
  upper : α
  ubound : UB
  setby : By
deriving DecidableEq

/-- The range check at the end of `OptionBase::validate` (options.hpp 267-284). -/
def quickCheck {α} [Ops α] (l : α) (lb : LB) (u : α) (ub : UB) (v : α) : Status :=
  let low :=
    if lb = .greaterthan ∧ Ops.le v l then 1
    else if lb = .greaterequal ∧ Ops.lt v l then 2 else 0
  let flag :=
    if ub = .lessthan ∧ Ops.le u v then low + 10
    else if ub = .lessequal ∧ Ops.lt u v then low + 20 else low
  if flag ≠ 0 then .invalidValue else .ok

/-- `lower == upper`. -/
def eqv {α} [Ops α] (a b : α) : Bool := Ops.le a b && Ops.le b a

/-- `OptionBase::validate` (options.hpp 230-285). -/
def validate {α} [Ops α] (l : α) (lb : LB) (u : α) (ub : UB) (v : α) (checkall : Bool) : Status :=
  if checkall then
    if Ops.isNaN u ∨ Ops.isNaN l then .invalidBounds
    else if Ops.lt u l ∧ ub ≠ .pinf then .invalidBounds
    else if eqv l u ∧ lb ≠ .minf ∧ ub ≠ .pinf ∧ ¬ (lb = .greaterequal ∧ ub = .lessequal) then
      .invalidBounds
    else if Ops.isNaN v then .invalidValue
    else quickCheck l lb u ub v
  else quickCheck l lb u ub v

/-- The constructor of a numeric option (options.hpp 331-353); `none` when it throws. -/
def Num.mk? {α} [Ops α] (l : α) (lb : LB) (u : α) (ub : UB) (dflt : α) : Option (Num α) :=
  if validate l lb u ub dflt true = .ok then some ⟨dflt, l, lb, u, ub, .dflt⟩ else none

/-- `OptionNumeric<T>::set` for a type other than `bool` (options.hpp 504-514). -/
def Num.set {α} [Ops α] (o : Num α) (v : α) (by_ : By) : Status × Num α :=
  let st := validate o.lower o.lbound o.upper o.ubound v false
  if st ≠ .ok then (st, o) else (.ok, { o with value := v, setby := by_ })

/-- The members of `OptionString` (options.hpp 527-532).  `labels` is the `std::map` from labels to
keys, empty for a free-form option. -/
structure StrOpt where
  value : Str
  labels : List (Str × Int)
  strict : Bool
  setby : By
deriving DecidableEq

/-- `labels.find`. -/
def findLabel (ls : List (Str × Int)) (v : Str) : Option Int := (ls.find? fun p => p.1 = v).map (·.2)

/-- The constructor of a string option (options.hpp 535-594); `none` when it throws. -/
def StrOpt.mk? (labels : List (Str × Int)) (dflt : Str) (strict : Bool) : Option StrOpt :=
  if strict then
    if prepStr dflt ≠ dflt then none
    else if labels ≠ [] ∧
        (dflt = [] ∨ (labels.any fun p => prepStr p.1 = [] ∨ prepStr p.1 ≠ p.1) ∨
          ¬ (labels.any fun p => p.1 = dflt)) then none
    else some ⟨dflt, labels, strict, .dflt⟩
  else some ⟨dflt, labels, strict, .dflt⟩

/-- `OptionString::set` (options.hpp 726-758). -/
def StrOpt.set (o : StrOpt) (v : Str) (by_ : By) : Status × StrOpt :=
  if o.labels ≠ [] then
    if (findLabel o.labels v).isSome then (.ok, { o with value := v, setby := by_ })
    else if (findLabel o.labels (prepStr v)).isSome then
      (.ok, { o with value := prepStr v, setby := by_ })
    else (.invalidValue, o)
  else if o.strict then (.ok, { o with value := prepStr v, setby := by_ })
  else (.ok, { o with value := v, setby := by_ })

/-- An option of any of the five types.  A `bool` option has no range to check. -/
inductive Opt
  | int (o : Num Int)
  | f32 (o : Num F32)
  | f64 (o : Num F64)
  | bool (value : Bool) (setby : By)
  | str (o : StrOpt)
deriving DecidableEq

/-- A value handed to a setter or returned by a getter; its constructor is the type the template is
instantiated with. -/
inductive Val
  | int (v : Int)
  | f32 (v : F32)
  | f64 (v : F64)
  | bool (v : Bool)
  | str (v : Str)
deriving DecidableEq

/-- `option_t` (options.hpp 177). -/
inductive Ty | int | f32 | f64 | bool | str
deriving DecidableEq, Repr

def Opt.ty : Opt → Ty
  | .int _ => .int | .f32 _ => .f32 | .f64 _ => .f64 | .bool .. => .bool | .str _ => .str

def Val.ty : Val → Ty
  | .int _ => .int | .f32 _ => .f32 | .f64 _ => .f64 | .bool _ => .bool | .str _ => .str

/-- `OptionNumeric<T>::get` and `OptionString::get` (options.hpp 502, 691). -/
def Opt.get : Opt → Val
  | .int o => .int o.value
  | .f32 o => .f32 o.value
  | .f64 o => .f64 o.value
  | .bool v _ => .bool v
  | .str o => .str o.value

/-- The cast to the option's class and its `set` (options.hpp 848-849).  With another type the cast
would be undefined behaviour. -/
def Opt.set : Opt → Val → By → Status × Opt
  | .int o, .int v, b => ((o.set v b).1, .int (o.set v b).2)
  | .f32 o, .f32 v, b => ((o.set v b).1, .f32 (o.set v b).2)
  | .f64 o, .f64 v, b => ((o.set v b).1, .f64 (o.set v b).2)
  | .bool _ _, .bool v, b => (.ok, .bool v b)
  | .str o, .str v, b => ((o.set v b).1, .str (o.set v b).2)
  | o, _, _ => (.ub, o)

/-! ## The registry -/

/-- `OptionRegistry` (options.hpp 773-786). -/
structure Registry where
  readonly : Bool
  entries : List (Str × Opt)
deriving DecidableEq

/-- `registry.find`. -/
def find (es : List (Str × Opt)) (k : Str) : Option Opt :=
  match es with
  | [] => none
  | (n, o) :: es => if n = k then some o else find es k

/-- Replacing the option a key is mapped to. -/
def put (es : List (Str × Opt)) (k : Str) (o : Opt) : List (Str × Opt) :=
  match es with
  | [] => []
  | (n, x) :: es => if n = k then (n, o) :: es else (n, x) :: put es k o

/-- `registry.erase`. -/
def erase (es : List (Str × Opt)) (k : Str) : List (Str × Opt) :=
  match es with
  | [] => []
  | (n, x) :: es => if n = k then es else (n, x) :: erase es k

/-- `OptionRegistry::register_opt` (options.hpp 788-807).  Erasing at `end()`, when an option that
is to be replaced is not there, is undefined. -/
def Registry.register (r : Registry) (name : Str) (o : Opt) (overwrite : Bool) : Status × Registry :=
  if r.readonly then (.locked, r)
  else if overwrite ∧ find r.entries name = none then (.ub, r)
  else
    let es := if overwrite then erase r.entries name else r.entries
    if (find es name).isSome then (.invalidInput, { r with entries := es })
    else (.ok, { r with entries := es ++ [(name, o)] })

/-- The two look-ups by which every setter and getter finds an option (options.hpp 820-829): first
under the name as given, then under the tidied name.  The result is the key found. -/
def resolve (es : List (Str × Opt)) (name : Str) : Option Str :=
  if (find es name).isSome then some name
  else if (find es (prepStr name)).isSome then some (prepStr name)
  else none

/-- `OptionRegistry::set` (options.hpp 814-855). -/
def Registry.set (r : Registry) (name : Str) (v : Val) (b : By) : Status × Registry :=
  if r.readonly then (.locked, r)
  else
    match resolve r.entries name with
    | none => (.notFound, r)
    | some k =>
      match find r.entries k with
      | none => (.notFound, r)
      | some o =>
        if o.ty ≠ v.ty then (.wrongType, r)
        else ((o.set v b).1, { r with entries := put r.entries k (o.set v b).2 })

/-- `OptionRegistry::get` for every type (options.hpp 866-899, 911-931). -/
def Registry.get (r : Registry) (name : Str) (t : Ty) : Status × Option Val :=
  match resolve r.entries name with
  | none => (.notFound, none)
  | some k =>
    match find r.entries k with
    | none => (.notFound, none)
    | some o => if o.ty ≠ t then (.wrongType, none) else (.ok, some o.get)

/-- `OptionRegistry::get` for a label and its key (options.hpp 934-954 and 692-701): `labels.at`
throws when the value is no label. -/
def Registry.getKey (r : Registry) (name : Str) : Status × Option (Str × Int) :=
  match resolve r.entries name with
  | none => (.notFound, none)
  | some k =>
    match find r.entries k with
    | none => (.notFound, none)
    | some (.str o) =>
      if o.labels ≠ [] then
        match findLabel o.labels o.value with
        | some id => (.ok, some (o.value, id))
        | none => (.throws, none)
      else (.ok, some (o.value, -1))
    | some _ => (.wrongType, none)

/-- Calls that can change a registry after it has been set up. -/
inductive Op
  | set (name : Str) (v : Val) (b : By)
  | lock
  | unlock
deriving DecidableEq

/-- `set`, `lock` and `unlock` (options.hpp 784-785). -/
def Op.run (r : Registry) : Op → Status × Registry
  | .set n v b => r.set n v b
  | .lock => (.ok, { r with readonly := true })
  | .unlock => (.ok, { r with readonly := false })

/-- A history of calls. -/
def runOps (r : Registry) (ops : List Op) : Registry := ops.foldl (fun (s : Registry) o => (o.run s).2) r

/-! ## The public functions -/

/-- A handle: its precision, its registry, and the fitted model with whatever else a sub-handle
keeps. -/
structure Handle (M : Type) where
  single : Bool
  opts : Registry
  model : M

/-- `check_precision` (da_handle.cpp 188-198) for the real types; integers and strings have no precision
(options_public.cpp 40-44). -/
def precisionOk (single : Bool) : Val → Bool
  | .f32 _ => single
  | .f64 _ => !single
  | _ => true

/-- `da_options_set` (options_public.cpp 32-57) with `get_current_opts(&opts, true)` (da_handle.cpp
37-62), which calls the sub-handle's `refresh`. -/
def daSet {M : Type} (refresh : M → M) (h : Handle M) (name : Str) (v : Val) : Status × Handle M :=
  if !precisionOk h.single v then (.wrongType, h)
  else
    match h.opts.set name v .user with
    | (s, r) => (s, { h with opts := r, model := refresh h.model })

/-- `da_options_get` for numbers (options_public.cpp 98-123). -/
def daGet {M : Type} (h : Handle M) (name : Str) (t : Ty) : Status × Option Val :=
  if (t = .f32 ∧ !h.single) ∨ (t = .f64 ∧ h.single) then (.wrongType, none) else h.opts.get name t

/-- What `da_options_get` for a string returns: its status, the caller's `*lvalue`, and the caller's
buffer. -/
structure StrOut where
  status : Status
  lvalue : Int
  buf : Str
deriving DecidableEq

/-- `(size_t)x` for a 64-bit `size_t`. -/
def toSize (x : Int) : Nat := (x % 2 ^ 64).toNat

/-- Overwriting the front of a buffer. -/
def overwrite (buf s : Str) : Str := s ++ buf.drop s.length

/-- `da_options_get` for strings (options_public.cpp 59-96) and `da_datastore_options_get` for
strings (155-183).  `buf` is the storage `value` points to, with its length what the caller really
allocated; writing `n + 1` bytes into less is undefined. -/
def daGetStr (r : Registry) (name : Str) (buf : Str) (lvalue : Int) : StrOut :=
  match r.get name .str with
  | (.ok, some (.str v)) =>
    if v.length ≥ toSize lvalue then ⟨.invalidInput, v.length + 1, buf⟩
    else if v.length + 1 > buf.length then ⟨.ub, lvalue, buf⟩
    else ⟨.ok, lvalue, overwrite buf (v ++ [0])⟩
  | (s, _) => ⟨s, lvalue, buf⟩

end Verif.Options
