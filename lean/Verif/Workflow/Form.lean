import Verif.Workflow.Engine
import Verif.Workflow.Steps
import Verif.Util.PyDict
import Verif.Types.Arguments
/-
The form of a run (`method_schemas["run"]`), and the edition of inputs.
Sources: dessia_common/workflow/core.py 62-91, 705-755, 1556-1577; dessia_common/schemas/core.py 83-215.

Simplifications: the schema of a property is the pair of its attribute and its annotation; texts of documentation of the inputs, `group_id`
and `id_` are left out; the titles computed from the names of blocks and variables are a parameter.
-/
namespace DC.Wkf

variable {α τ δ : Type}

/-- A `SchemaAttribute` made for an input: schemas/core.py 95-127, workflow/core.py 725-726.  `key` is the integer whose string is the
name (`none` for None). -/
structure FormAttr (α : Type) where
  key : Option Nat
  default : Option α
  editable : Bool
  title : String
  deriving DecidableEq, Repr

/-- `SchemaStep`: schemas/core.py 190-215, with the attributes which are not in the group, those of the group, and their
annotations. -/
structure StepForm (α τ δ : Type) where
  label : String
  documentation : String
  display : Option (δ × Int)
  attributes : List (FormAttr α × τ)
  group : List (FormAttr α × τ)

/-- `Schema`: schemas/core.py 218-240, as `method_schemas` makes it. -/
structure RunForm (α τ δ : Type) where
  steps : List (StepForm α τ δ)
  spare : List (FormAttr α × τ)

/-- What the form is made from: the workflow, the labels and the types of its variables, their names as a title, the steps.
Used for workflow/core.py 714-724. -/
structure Editor (α τ δ : Type) where
  base : Workflow α
  label : Nat → String
  auto : Nat → String
  typ : Nat → τ
  ed : Ed δ

/-- The title of an input: workflow/core.py 714-724, schemas/core.py 111-116. -/
def inputTitle (E : Editor α τ δ) (v : Nat) (key : Option Nat) : String :=
  if E.label v ≠ "" then E.label v
  else if E.auto v ≠ "" then E.auto v
  else match key with
    | some k => toString k
    | none => "None"

/-- `input_schema`: workflow/core.py 708-726. -/
def inputSchema (E : Editor α τ δ) (v : Nat) : Except PyErr (FormAttr α) := do
  let l ← locked E.base v
  .ok { key := inputIndex E.base v, default := E.base.default v, editable := !l, title := inputTitle E v (inputIndex E.base v) }

/-- `input_annotations`: workflow/core.py 705-706. -/
def inputAnnotations (E : Editor α τ δ) (vs : List Nat) : List (Option Nat × τ) :=
  vs.foldl (fun d v => Dict.set d (inputIndex E.base v) (E.typ v)) []

/-- `{a.name: annotations.pop(a.name) for a in group_attributes}`: workflow/core.py 746; the attributes with their annotations, and the
annotations left. -/
def popAll : List (Option Nat × τ) → List (FormAttr α) → Except PyErr (List (FormAttr α × τ) × List (Option Nat × τ))
  | d, [] => .ok ([], d)
  | d, a :: l => match d.lookup a.key with
    | none => .error .keyError
    | some t => do
      let r ← popAll (d.filter fun e => e.1 != a.key) l
      .ok ((a, t) :: r.1, r.2)

/-- The schemas of the properties of a collection: schemas/core.py 135-145. -/
def properties (d : List (Option Nat × τ)) : List (FormAttr α) → Except PyErr (List (FormAttr α × τ))
  | [] => .ok []
  | a :: l => match d.lookup a.key with
    | none => .error .valueError
    | some t => do
      let r ← properties d l
      .ok ((a, t) :: r)

/-- The body of the loop of `method_schemas` on the steps: workflow/core.py 732-749. -/
def stepSchema (E : Editor α τ δ) (s : StepObj δ) : Except PyErr (StepForm α τ δ) := do
  let l ← Arg.mapE (inputSchema E) s.inputs
  let tagged := s.inputs.zip l
  let group := (tagged.filter fun e => s.groupInputs.contains e.1).map (·.2)
  let others := (tagged.filter fun e => !s.groupInputs.contains e.1).map (·.2)
  let p ← popAll (inputAnnotations E s.inputs) group
  let q ← properties p.2 others
  .ok { label := s.label, documentation := s.documentation, display := s.display, attributes := q, group := p.1 }

/-- `spare_annotations[a.name]`: workflow/core.py 753. -/
def spareSchema (d : List (Option Nat × τ)) (a : FormAttr α) : Except PyErr (FormAttr α × τ) :=
  match d.lookup a.key with
  | none => .error .keyError
  | some t => .ok (a, t)

/-- `method_schemas["run"]`: workflow/core.py 728-755. -/
def runForm (E : Editor α τ δ) : Except PyErr (RunForm α τ δ) := do
  let steps ← Arg.mapE (fun a => stepSchema E (E.ed.obj a)) E.ed.steps
  let l ← Arg.mapE (inputSchema E) E.ed.spare
  let spare ← Arg.mapE (spareSchema (inputAnnotations E E.ed.spare)) l
  .ok { steps := steps, spare := spare }

/-! ### Editions -/

/-- The editions of the form: workflow/core.py 1418-1577. -/
inductive FormOp (α δ : Type) where
  | renameInput (i : Int) (label : String)
  | lockInput (i : Int) (value : Option α)
  | setDefault (i : Int) (value : Option α)
  | resetDefault (i : Int)
  | step (op : EditOp δ)

/-- The attribute of one variable set.  Used for workflow/core.py 76-83. -/
def setAt {β : Type} (f : Nat → β) (v : Nat) (x : β) (u : Nat) : β := if u = v then x else f u

/-- `Variable.lock`: workflow/core.py 76-83. -/
def lockVar (W : Workflow α) (v : Nat) (value : Option α) : Except PyErr (Workflow α) :=
  match value with
  | some x => .ok { W with default := setAt W.default v (some x), lockFlag := setAt W.lockFlag v true }
  | none => if (W.default v).isSome then .ok { W with lockFlag := setAt W.lockFlag v true } else .error .valueError

/-- `set_input_default`: workflow/core.py 1568-1574. -/
def setDefaultAt (E : Editor α τ δ) (i : Int) (value : Option α) : Editor α τ δ × Option PyErr :=
  match Py.get (inputs E.base) i with
  | .error err => (E, some err)
  | .ok v => ({ E with base := { E.base with default := setAt E.base.default v value } }, none)

/-- What an edition changes, before it computes the form: workflow/core.py 1418-1577.  Simplification: an edition of the steps which
calls an other one computes the form at its end only. -/
def FormOp.change : FormOp α δ → Editor α τ δ → Editor α τ δ × Option PyErr
  | .renameInput i l, E => match Py.get (inputs E.base) i with
    | .error err => (E, some err)
    | .ok v => ({ E with label := setAt E.label v l }, none)
  | .lockInput i value, E => match Py.get (inputs E.base) i with
    | .error err => (E, some err)
    | .ok v => match lockVar E.base v value with
      | .error err => (E, some err)
      | .ok W => ({ E with base := W }, none)
  | .setDefault i value, E => setDefaultAt E i value
  | .resetDefault i, E => setDefaultAt E i none
  | .step op, E => ({ E with ed := (op.run E.ed).1 }, (op.run E.ed).2)

/-- An edition: the state it leaves, and the form it returns or the exception it raises.  Used for workflow/core.py 1418-1577. -/
def FormOp.run (op : FormOp α δ) (E : Editor α τ δ) : Editor α τ δ × Except PyErr (RunForm α τ δ) :=
  match op.change E with
  | (E', some err) => (E', .error err)
  | (E', none) => (E', runForm E')

end DC.Wkf
