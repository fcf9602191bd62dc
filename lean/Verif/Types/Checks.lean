import Verif.Util.PyList
/-
Checks of the types of pipes and of values.
Source: dessia_common/workflow/core.py 1270-1284, 2356-2369.
-/
namespace DC.Types

/-- What Python tells of types: `t.type_`, `issubclass(a, b)` and `isinstance(v, t)`, with their errors.  `none` is None, and a variable may have
this type.  Used for workflow/core.py 1272-1283. -/
structure TypeWorld (T α : Type) where
  typeOf : T → Except PyErr T
  issubclass : T → T → Except PyErr Bool
  isinstance : α → T → Except PyErr Bool
  none : T

variable {T α : Type} [DecidableEq T]

/-- One pipe, as the types of its two variables: workflow/core.py 1272-1283.  `consistent` is always True, so that a TypeError is dropped; the
answer of `issubclass` is not used. -/
def checkPipe (W : TypeWorld T α) (upstream downstream : T) : Except PyErr Unit :=
  match W.typeOf upstream with
  | .error e => .error e
  | .ok u =>
    match W.typeOf downstream with
    | .error e => .error e
    | .ok d =>
      if u = d then .ok ()
      else
        match W.typeOf u with
        | .error .typeError => .ok ()
        | .error e => .error e
        | .ok uu =>
          match W.issubclass uu d with
          | .error .typeError => .ok ()
          | .error e => .error e
          | .ok _ => .ok ()

/-- `Workflow.is_valid`: workflow/core.py 1270-1284. -/
def workflowValid (W : TypeWorld T α) : List (T × T) → Except PyErr Bool
  | [] => .ok true
  | p :: ps =>
    match checkPipe W p.1 p.2 with
    | .error e => .error e
    | .ok () => workflowValid W ps

/-- `value_type_check`: workflow/core.py 2356-2369. -/
def valueTypeCheck (W : TypeWorld T α) (v : α) (t : T) : Except PyErr Bool :=
  if t = W.none then .ok false
  else
    match W.isinstance v t with
    | .error .typeError => .ok true
    | .error e => .error e
    | .ok b => .ok b

end DC.Types
