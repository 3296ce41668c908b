/-
Model of `da_errors::da_error_t`, /repo/source/core/utilities/da_error.hpp:163-304.

Not modelled: VERBOSE_ERROR printing, the DA_ABORT / DA_THROW actions (the model is
the DA_RECORD action, which every public handle uses), the text layout of print().
-/
namespace Verif.ErrorStack

/-- `DA_ERROR_STACK_SIZE`, da_error.hpp:150. -/
def stackSize : Nat := 10

/-- `da_severity`, values used by the macros at da_error.hpp:321-345. -/
inductive Severity | notSet | warning | error
deriving DecidableEq, Repr

/-- `da_status` as an integer code; the two codes the class itself uses. -/
abbrev Status := Int
def statusSuccess : Status := 0
/-- `da_status_internal_error`: the second value of the enumeration, aoclda_error.h. -/
def statusInternalError : Status := 1

/-- The five parallel vectors, da_error.hpp:166-175. -/
structure ErrT where
  mesg : List String
  details : List String
  telem : List String
  severity : List Severity
  status : List Status
deriving DecidableEq, Repr

/-- Constructor, da_error.hpp:216-222: everything empty. -/
def ErrT.new : ErrT := ⟨[], [], [], [], []⟩

/-- `clear`, da_error.hpp:207-214. -/
def ErrT.clear (_ : ErrT) : ErrT := ⟨[], [], [], [], []⟩

/-- The arguments of `rec`; `tel` stands for `tel + to_string(ln)`. -/
structure Entry where
  status : Status
  mesg : String
  details : String
  telem : String
  severity : Severity
deriving DecidableEq, Repr

/-- The message of da_error.hpp:286-288. -/
def fullMesg : String := "Too many errors were registered, storing the first 10"

/-- `rec`, da_error.hpp:266-303.  Returns the status it was given. -/
def ErrT.rec_ (e : ErrT) (x : Entry) (stack : Bool) : Status × ErrT :=
  let e1 : ErrT := if !stack then ⟨[], [], [], [], []⟩ else e
  let size := e1.status.length
  let e2 : ErrT :=
    if size < stackSize - 1 then
      { status := e1.status ++ [x.status], mesg := e1.mesg ++ [x.mesg],
        details := e1.details ++ [x.details], telem := e1.telem ++ [x.telem],
        severity := e1.severity ++ [x.severity] }
    else if size = stackSize - 1 then
      { status := e1.status ++ [statusInternalError], mesg := e1.mesg ++ [fullMesg],
        details := e1.details ++ [""], telem := e1.telem ++ [""],
        severity := e1.severity ++ [Severity.error] }
    else e1
  (x.status, e2)

/-- `get_status`, da_error.hpp:183-185. -/
def ErrT.getStatus (e : ErrT) : Status :=
  match e.status with | [] => statusSuccess | s :: _ => s
/-- `get_severity`, da_error.hpp:180-182. -/
def ErrT.getSeverity (e : ErrT) : Severity :=
  match e.severity with | [] => Severity.notSet | s :: _ => s
/-- `get_mesg`, da_error.hpp:186. -/
def ErrT.getMesg (e : ErrT) : String :=
  match e.mesg with | [] => "" | s :: _ => s
/-- `get_details`, da_error.hpp:187. -/
def ErrT.getDetails (e : ErrT) : String :=
  match e.details with | [] => "" | s :: _ => s
/-- `get_telem`, da_error.hpp:188. -/
def ErrT.getTelem (e : ErrT) : String :=
  match e.telem with | [] => "" | s :: _ => s

/-- `get_mesg_char`, da_error.hpp:190-205: `mesg.front()` of an empty vector is undefined
behaviour (`none`). -/
def ErrT.getMesgChar (e : ErrT) : Option String :=
  match e.mesg with | [] => none | s :: _ => some s

/-- The lines `print` produces, one entry per level (da_error.hpp:227-253); indexing a
shorter vector out of range is `none`. -/
def ErrT.printLevels (e : ErrT) : Option (List Entry) :=
  if e.status.isEmpty then some []
  else (List.range e.mesg.length).mapM fun t => do
    let sv ← e.severity[t]?
    let st ← e.status[t]?
    let tl ← e.telem[t]?
    let ms ← e.mesg[t]?
    let dt ← e.details[t]?
    pure { status := st, mesg := ms, details := dt, telem := tl, severity := sv }

/-- A call on the object. -/
inductive Op
  | clear
  | record (x : Entry) (stack : Bool)
deriving DecidableEq, Repr

def step (e : ErrT) : Op → ErrT
  | .clear => e.clear
  | .record x stack => (e.rec_ x stack).2

/-- State after a history of calls. -/
def run (h : List Op) : ErrT := h.foldl step ErrT.new

end Verif.ErrorStack
