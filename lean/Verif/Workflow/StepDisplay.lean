import Verif.Workflow.Display
import Verif.Workflow.Steps
/-
Displays offered at the steps of a workflow, and computation of the display of a step.
Source: dessia_common/workflow/core.py 91-98, 1393-1416, 1498-1548.

The structure of the workflow is `W`, its steps are those of `e`; `avail` gives the `available_display_settings` of each
variable (91-98), `label` its label.
-/
namespace DC.Wkf

variable {α δ β : Type}

/-- `list.index`: workflow/core.py 1401, 1409, 1415. -/
def indexIn (l : List Nat) (v : Nat) : Except PyErr Nat := if v ∈ l then .ok (l.idxOf v) else .error .valueError

/-- `displayable_outputs`: workflow/core.py 1392-1394. -/
def displayableOutputs (W : Workflow α) (avail : Nat → List δ) : List Nat :=
  (W.blocks.flatMap (·.outputs)).filter (fun o => !(avail o).isEmpty)

/-- The dictionary `ds_inputs`: for each output, the indices of its upstream inputs.  workflow/core.py 1400-1403.
Simplification: an output listed twice is not represented, as blocks have their own variables. -/
def outputInputs (W : Workflow α) (so : SetOrder) : List Nat → Except PyErr (List (Nat × List Nat))
  | [] => .ok []
  | o :: rest => do
    let ups ← upstreamInputs W so o
    let ks ← ups.mapM (indexIn (inputs W))
    let l ← outputInputs W so rest
    .ok ((o, ks) :: l)

/-- The loop on the outputs, at one step: the outputs whose displays are offered, with their index in `variables`.
workflow/core.py 1407-1413. -/
def offeredAt (W : Workflow α) (missing : List Nat) : List (Nat × List Nat) → Except PyErr (List (Nat × Nat))
  | [] => .ok []
  | (o, ks) :: rest =>
    if ks.all (fun k => !missing.contains k) then do
      let n ← indexIn (allVariables W) o
      let l ← offeredAt W missing rest
      .ok ((n, o) :: l)
    else offeredAt W missing rest

/-- The loop on the reversed steps, given by their inputs, with `missing_inputs`: workflow/core.py 1405-1415.  The result
is in the order of the loop. -/
def offersLoop (W : Workflow α) (ds : List (Nat × List Nat)) : List (List Nat) → List Nat →
    Except PyErr (List (List (Nat × Nat)))
  | [], _ => .ok []
  | step :: rest, missing => do
    let here ← offeredAt W missing ds
    let ks ← step.mapM (indexIn (inputs W))
    let l ← offersLoop W ds rest (missing ++ ks)
    .ok (here :: l)

/-- What `displayable_display_settings` returns: for each step, the display settings by index of variable, and the labels
by index of variable.  workflow/core.py 1416. -/
structure StepOffer (δ : Type) where
  settings : List (List (Nat × List δ))
  labels : List (Nat × String)
  deriving DecidableEq

/-- `displayable_display_settings`: workflow/core.py 1396-1416.  The dictionary of labels is filled in the order of the
loop on the reversed steps; writing an entry again does not change it. -/
def displayableSettings (W : Workflow α) (so : SetOrder) (avail : Nat → List δ) (label : Nat → String) (e : Ed δ) :
    Except PyErr (StepOffer δ) := do
  let ds ← outputInputs W so (displayableOutputs W avail)
  let l ← offersLoop W ds (e.steps.reverse.map fun a => (e.obj a).inputs) []
  .ok ⟨(l.map fun s => s.map fun no => (no.1, avail no.2)).reverse,
    (l.flatten.foldl (fun d no => setEntry d no.1 (label no.2)) [])⟩

/-- `evaluated_blocks[block][output_index]`: workflow/core.py 1546. -/
def outputOf (done : List (Nat × List α)) (i n : Nat) : Except PyErr α :=
  match done.lookup i with
  | none => .error .keyError
  | some ys => match ys[n]? with
    | some y => .ok y
    | none => .error .indexError

/-- The value computed for the output `n` of block `i`: workflow/core.py 1540-1546.  Simplification: the values are
deserialized beforehand. -/
def branchValue (W : Workflow α) (so : SetOrder) (i n : Nat) (user : List (Nat × α)) : Except PyErr α := do
  let branch ← upstreamBranch W so i
  let vals ← inputValues W user
  let s ← startRun W vals
  let rt ← runtimeBlocks W so
  let (_, done) ← evaluateBranchOut W rt branch s
  outputOf done i n

/-- `compute_step_display`: workflow/core.py 1520-1548.  `view` shows an object with a display setting (1547-1548).
Unpacking the address of a variable which belongs to no block is a TypeError. -/
def computeStepDisplay (W : Workflow α) (so : SetOrder) (view : α → δ → Except PyErr β) (e : Ed δ) (k : Int)
    (user : List (Nat × α)) : Except PyErr (Option β) :=
  match Py.get e.steps k with
  | .error err => .error err
  | .ok a => match (e.obj a).display with
    | none => .ok none
    | some (d, vi) => match Py.get (allVariables W) vi with
      | .error err => .error err
      | .ok v => match variableIndices W v with
        | .error err => .error err
        | .ok (.nbv _) => .error .typeError
        | .ok (.port _ false _) => .error .valueError
        | .ok (.port i true n) => match branchValue W so i n user with
          | .error err => .error err
          | .ok y => (view y d).map some

/-- `add_step_display` from the variable: workflow/core.py 1498-1512.  `select` is the search of the display setting in
those of the variable (1509-1510). -/
def addDisplayAt (W : Workflow α) (so : SetOrder) (select : Nat → Except PyErr δ) (vi k : Int) (e : Ed δ) : Outcome δ :=
  match Py.get (allVariables W) vi with
  | .error err => (e, some err)
  | .ok v => match upstreamInputs W so v with
    | .error err => (e, some err)
    | .ok up => addStepDisplay up vi k (select v) e

end DC.Wkf
