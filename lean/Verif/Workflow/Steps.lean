import Mathlib.Data.List.Dedup
import Verif.Util.PyList
/-
Edition of the steps of a workflow.
Source: dessia_common/workflow/core.py 282-342, 364-409, 1418-1518, 1550-1554.

The steps are mutable objects which the list `steps` of the workflow refers to: they are kept in a store indexed by
their identity.  An edition returns the new state and the error raised, if any: what was changed before the error stays
changed.  Variables are natural numbers, compared by identity.

Simplifications: the schema of `run` returned by the editions (`method_schemas["run"]`) is not computed; `group_id` and
`id_` are left out.
-/
namespace DC.Wkf

/-- The attributes of a `Step`: workflow/core.py 285-302, 333-342.  `δ` is the type of the display settings. -/
structure StepObj (δ : Type) where
  label : String := ""
  inputs : List Nat := []
  groupInputs : List Nat := []
  display : Option (δ × Int) := none
  documentation : String := ""

/-- What the editions read and write in a workflow: `inputs`, `steps`, `spare_inputs`: workflow/core.py 364-409.
`obj` gives the attributes of each step, `next` the identity of the next step created. -/
structure Ed (δ : Type) where
  inputs : List Nat
  steps : List Nat
  spare : List Nat
  obj : Nat → StepObj δ
  next : Nat

variable {δ : Type}

/-- Outcome of an edition: the state left, and the error raised, if any.  Used for workflow/core.py 1418-1424. -/
abbrev Outcome (δ : Type) := Ed δ × Option PyErr

/-- Store update, for an assignment to an attribute of a step (e.g. workflow/core.py 1463). -/
def Ed.setStep (e : Ed δ) (a : Nat) (f : StepObj δ → StepObj δ) : Ed δ :=
  { e with obj := fun b => if b = a then f (e.obj a) else e.obj b }

/-- End of the constructor, without steps or with the given ones: workflow/core.py 402-409. -/
def Ed.init (inputs : List Nat) (steps : List (StepObj δ)) : Ed δ where
  inputs := inputs
  steps := List.range steps.length
  spare := inputs.filter fun i => !(steps.flatMap (·.inputs)).contains i
  obj a := steps[a]?.getD {}
  next := steps.length

/-- `find_input_step`: workflow/core.py 1490-1496. -/
def findInputStep (e : Ed δ) (v : Nat) : Except PyErr (Option Nat) :=
  match e.steps.filter fun a => (e.obj a).inputs.contains v with
  | [] => .ok none
  | [a] => .ok (some a)
  | _ => .error .valueError

/-- `change_input_step`: workflow/core.py 1418-1424. -/
def changeInputStep (inputIndex newStep : Int) (e : Ed δ) : Outcome δ :=
  match Py.get e.inputs inputIndex with
  | .error err => (e, some err)
  | .ok v => match findInputStep e v with
    | .error err => (e, some err)
    | .ok cur => match Py.get e.steps newStep with
      | .error err => (e, some err)
      | .ok a =>
        let e1 := e.setStep a fun s => { s with inputs := s.inputs ++ [v] }
        match cur with
        | none => match Py.remove e1.spare v with
          | .ok l => ({ e1 with spare := l }, none)
          | .error err => (e1, some err)
        | some b => match Py.remove (e1.obj b).inputs v with
          | .ok l => (e1.setStep b fun s => { s with inputs := l }, none)
          | .error err => (e1, some err)

/-- `change_inputs_step`: workflow/core.py 1426-1430. -/
def changeInputsStep : List Int → Int → Ed δ → Outcome δ
  | [], _, e => (e, none)
  | i :: is, newStep, e => match changeInputStep i newStep e with
    | (e, none) => changeInputsStep is newStep e
    | (e, some err) => (e, some err)

/-- `remove_input_from_step`: workflow/core.py 1432-1438. `current_step.inputs` raises an AttributeError when
`current_step` is None. -/
def removeInputFromStep (inputIndex : Int) (e : Ed δ) : Outcome δ :=
  match Py.get e.inputs inputIndex with
  | .error err => (e, some err)
  | .ok v =>
    let e1 := { e with spare := e.spare ++ [v] }
    match findInputStep e1 v with
    | .error err => (e1, some err)
    | .ok none => (e1, some .attributeError)
    | .ok (some b) => match Py.remove (e1.obj b).inputs v with
      | .ok l => (e1.setStep b fun s => { s with inputs := l }, none)
      | .error err => (e1, some err)

/-- `l[i]` for each `i`, as the comprehensions of workflow/core.py 1447 and 1472. -/
def getAll {α : Type} (l : List α) (order : List Int) : Except PyErr (List α) := order.mapM (Py.get l)

/-- The condition of workflow/core.py 1443-1444: equality of the set of the indices of the inputs of the step and of the
set of the given ones.  Simplification: `input_index` (1091-1096) is the index in `inputs`, `None` for an other
variable: an input has no incoming pipe, so `get_upstream_nbv` returns it unchanged. -/
def sameIndexSet (e : Ed δ) (inputs : List Nat) (order : List Int) : Bool :=
  let ids : List (Option Int) := inputs.map fun v => if e.inputs.contains v then some (e.inputs.idxOf v : Nat) else none
  ids.all (fun i => match i with | some i => order.contains i | none => false) &&
    order.all (fun i => ids.contains (some i))

/-- `reorder_step_inputs`: workflow/core.py 1440-1448. -/
def reorderStepInputs (stepIndex : Int) (order : List Int) (e : Ed δ) : Outcome δ :=
  match Py.get e.steps stepIndex with
  | .error err => (e, some err)
  | .ok a =>
    if sameIndexSet e (e.obj a).inputs order then
      match getAll e.inputs order with
      | .ok l => (e.setStep a fun s => { s with inputs := l }, none)
      | .error err => (e, some err)
    else (e, some .valueError)

/-- `insert_step`: workflow/core.py 1450-1457. -/
def insertStep (label : String) (stepIndex : Option Int) (e : Ed δ) : Outcome δ :=
  let steps := match stepIndex with
    | none => e.steps ++ [e.next]
    | some i => Py.insert e.steps i e.next
  ({ e with steps := steps, next := e.next + 1, obj := fun b => if b = e.next then { label } else e.obj b }, none)

/-- `rename_step`: workflow/core.py 1459-1463. -/
def renameStep (stepIndex : Int) (label : String) (e : Ed δ) : Outcome δ :=
  match Py.get e.steps stepIndex with
  | .error err => (e, some err)
  | .ok a => (e.setStep a fun s => { s with label }, none)

/-- `save_step_documentation`: workflow/core.py 1550-1554. -/
def saveStepDocumentation (stepIndex : Int) (documentation : String) (e : Ed δ) : Outcome δ :=
  match Py.get e.steps stepIndex with
  | .error err => (e, some err)
  | .ok a => (e.setStep a fun s => { s with documentation }, none)

/-- `reorder_steps`: workflow/core.py 1465-1473. -/
def reorderSteps (order : List Int) (e : Ed δ) : Outcome δ :=
  if order.length ≠ e.steps.length then (e, some .valueError)
  else if order.dedup.length ≠ e.steps.length then (e, some .valueError)
  else match getAll e.steps order with
    | .ok l => ({ e with steps := l }, none)
    | .error err => (e, some err)

/-- The loop of `remove_step`, on the positions from `k - 1` down to 0 of the inputs of step `a`: the reversed iterator
stops when its position is out of the list.  workflow/core.py 1478-1480. -/
def removeInputs (a : Nat) : Nat → Ed δ → Outcome δ
  | 0, e => (e, none)
  | k + 1, e => match (e.obj a).inputs[k]? with
    | none => (e, none)
    | some v =>
      if e.inputs.contains v then
        match removeInputFromStep (e.inputs.idxOf v : Nat) e with
        | (e, none) => removeInputs a k e
        | (e, some err) => (e, some err)
      else (e, some .valueError)

/-- `remove_step`: workflow/core.py 1475-1482. -/
def removeStep (stepIndex : Int) (e : Ed δ) : Outcome δ :=
  match Py.get e.steps stepIndex with
  | .error err => (e, some err)
  | .ok a => match removeInputs a (e.obj a).inputs.length e with
    | (e, some err) => (e, some err)
    | (e, none) => match Py.del e.steps stepIndex with
      | .ok l => ({ e with steps := l }, none)
      | .error err => (e, some err)

/-- The loop of `reset_steps` on the indices from `k - 1` down to 0: workflow/core.py 1486-1487. -/
def resetLoop : Nat → Ed δ → Outcome δ
  | 0, e => (e, none)
  | k + 1, e => match removeStep (k : Nat) e with
    | (e, none) => resetLoop k e
    | (e, some err) => (e, some err)

/-- `reset_steps`: workflow/core.py 1484-1488. -/
def resetSteps (e : Ed δ) : Outcome δ := resetLoop e.steps.length e

/-- The loop of `add_step_display` on the upstream inputs: workflow/core.py 1503-1507.  `input_index` is never None
for an upstream input: `self.inputs.index` is used in its place. -/
def gatherInputs (previous : List Nat) (stepIndex : Int) : List Nat → Ed δ → Outcome δ
  | [], e => (e, none)
  | v :: vs, e =>
    if previous.contains v then gatherInputs previous stepIndex vs e
    else if e.inputs.contains v then
      match changeInputStep (e.inputs.idxOf v : Nat) stepIndex e with
      | (e, none) => gatherInputs previous stepIndex vs e
      | (e, some err) => (e, some err)
    else (e, some .typeError)

/-- `add_step_display`: workflow/core.py 1498-1512, from the upstream inputs of the variable (`upstream_inputs`, lines
1500-1501) and the display setting found for the selector (1509-1510). -/
def addStepDisplay (upstream : List Nat) (variableIndex stepIndex : Int) (setting : Except PyErr δ) (e : Ed δ) :
    Outcome δ :=
  let previous := (Py.prefixSlice e.steps stepIndex).flatMap fun a => (e.obj a).inputs
  match gatherInputs previous stepIndex upstream e with
  | (e, some err) => (e, some err)
  | (e, none) => match Py.get e.steps stepIndex with
    | .error err => (e, some err)
    | .ok a => match setting with
      | .error err => (e, some err)
      | .ok d =>
        (e.setStep a fun s => { s with display := some (d, variableIndex), groupInputs := upstream }, none)

/-- `remove_step_display`: workflow/core.py 1514-1518, 338-342. -/
def removeStepDisplay (stepIndex : Int) (e : Ed δ) : Outcome δ :=
  match Py.get e.steps stepIndex with
  | .error err => (e, some err)
  | .ok a => (e.setStep a fun s => { s with display := none, groupInputs := [] }, none)

/-- The editions a user can call.  Used for workflow/core.py 1418-1554. -/
inductive EditOp (δ : Type) where
  | changeInputs (is : List Int) (step : Int)
  | removeInput (i : Int)
  | reorderInputs (step : Int) (order : List Int)
  | insert (label : String) (step : Option Int)
  | rename (step : Int) (label : String)
  | document (step : Int) (text : String)
  | reorder (order : List Int)
  | remove (step : Int)
  | reset
  | addDisplay (upstream : List Nat) (variableIndex step : Int) (setting : Except PyErr δ)
  | removeDisplay (step : Int)

/-- One edition: workflow/core.py 1418-1554. -/
def EditOp.run : EditOp δ → Ed δ → Outcome δ
  | .changeInputs is k, e => changeInputsStep is k e
  | .removeInput i, e => removeInputFromStep i e
  | .reorderInputs k o, e => reorderStepInputs k o e
  | .insert l k, e => insertStep l k e
  | .rename k l, e => renameStep k l e
  | .document k t, e => saveStepDocumentation k t e
  | .reorder o, e => reorderSteps o e
  | .remove k, e => removeStep k e
  | .reset, e => resetSteps e
  | .addDisplay u v k d, e => addStepDisplay u v k d e
  | .removeDisplay k, e => removeStepDisplay k e

end DC.Wkf
