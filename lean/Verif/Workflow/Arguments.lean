import Verif.Workflow.Engine
import Verif.Values.Paths
import Verif.Types.Arguments
/-
The arguments of a run, read from a document.
Source: dessia_common/workflow/core.py 811-830.
-/
namespace DC.Wkf

variable {α δ ν : Type}

/-- What the reading of arguments uses: `deserialize_argument` for the type of a variable (workflow/core.py 821-822), the test
`input_.name == RESULT_VARIABLE_NAME` (823), a value as the name of a result (`none` for None: 824, 826) and the string which an entry is,
if any (826).  Simplification: `global_dict`, `pointers_memo` and `path` are left out. -/
structure ArgReader (α δ ν : Type) where
  read : Nat → δ → Except PyErr α
  isName : Nat → Bool
  nameOf : α → Option ν
  strOf : δ → Option ν

/-- `{int(k): v for k, v in dict_.items()}`: workflow/core.py 813; a later entry replaces an earlier one of the same index, see
`entryAt`. -/
def intKeys (d : List (String × δ)) : Except PyErr (List (Int × δ)) :=
  Arg.mapE (fun e => match int? e.1 with
    | none => .error .valueError
    | some i => .ok (i, e.2)) d

/-- `dict_[i]`: workflow/core.py 813, 821, 826, 828. -/
def entryAt (e : List (Int × δ)) (i : Nat) : Option δ := e.reverse.lookup (i : Int)

/-- `(not input_.has_default_value or overwritten) and not input_.locked`: workflow/core.py 818-819. -/
def takesArg (W : Workflow α) (v : Nat) (x : Option δ) : Except PyErr Bool :=
  if !(W.default v).isSome || x.isSome then (locked W v).map (!·) else .ok false

/-- The loop on the inputs, from index `i` on, with the name found so far: workflow/core.py 817-825. -/
def argLoop (R : ArgReader α δ ν) (W : Workflow α) (e : List (Int × δ)) : Nat → List Nat → Option ν → Except PyErr (List (Nat × α) × Option ν)
  | _, [], name => .ok ([], name)
  | i, v :: vs, name => do
    let c ← takesArg W v (entryAt e i)
    if c then
      match entryAt e i with
      | none => .error .keyError
      | some x => do
        let y ← R.read v x
        let r ← argLoop R W e (i + 1) vs (if R.isName v then R.nameOf y else name)
        .ok ((i, y) :: r.1, r.2)
    else argLoop R W e (i + 1) vs name

/-- "Hot fixing name not attached": workflow/core.py 826-828. -/
def lateName (R : ArgReader α δ ν) (x : Option δ) : Option ν → Option ν
  | some n => some n
  | none => match x with
    | some d => R.strOf d
    | none => none

/-- `dict_to_arguments`: workflow/core.py 811-830; the values of the inputs and the name. -/
def dictToArguments (R : ArgReader α δ ν) (W : Workflow α) (allowed : List String) (d : List (String × δ)) (method : String) :
    Except PyErr (List (Nat × α) × Option ν) := do
  let e ← intKeys d
  if method ∈ allowed then do
    let r ← argLoop R W e 0 (inputs W) none
    .ok (r.1, lateName R (entryAt e (inputs W).length) r.2)
  else .error .notImplemented

/-- The methods a finished run allows: `WorkflowRun._allowed_methods`, workflow/core.py 2138. -/
def runAllowed : List String := []

/-- `WorkflowRun.dict_to_arguments`: workflow/core.py 2176-2180; the arguments of `run` of the workflow, for an allowed method. -/
def runDictToArguments (R : ArgReader α δ ν) (W : Workflow α) (allowed : List String) (d : List (String × δ)) (method : String) :
    Except PyErr (List (Nat × α) × Option ν) :=
  if method ∈ runAllowed then dictToArguments R W allowed d "run" else .error .notImplemented

end DC.Wkf
