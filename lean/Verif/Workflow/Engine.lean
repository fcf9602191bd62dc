import Verif.Workflow.Model
/-
Execution of a workflow.
Source: dessia_common/workflow/core.py 1227-1264, 1640-1673, 1858-1876, 1915-2091.
-/
namespace DC.Wkf

variable {α : Type}

/-- A WorkflowState: workflow/core.py 1649-1673.  `evaluated` lists the blocks of
`execution_info.after_block_memory_usage`, that is the evaluations in their order (2062).  Simplifications:
`activated_items` is split by kind of item; log, memory and times are left out. -/
structure St (α : Type) where
  inputValues : Nat → Option α
  values : Nat → Option α := fun _ => none
  actPipe : Nat → Bool := fun _ => false
  actVar : Nat → Bool := fun _ => false
  actBlock : Nat → Bool := fun _ => false
  outputValue : Option α := none
  evaluated : List Nat := []

/-- Assignment of one entry of a dictionary.  Used for workflow/core.py 1989-1993, 2003-2010. -/
def upd {β : Type} (f : Nat → β) (k : Nat) (b : β) : Nat → β := fun j => if j = k then b else f j

/-- `_activate_variable` and `_activate_pipe`: workflow/core.py 1989-1993, 2003-2010.  The recursion of the code is
bounded by `fuel`; when it is exhausted the code would recurse for ever (RecursionError). -/
def activateVar (W : Workflow α) : Nat → St α → Nat → α → Except PyErr (St α)
  | 0, _, _, _ => .error .recursionError
  | fuel + 1, s, v, x => do
    let s1 := if W.output = some v then { s with outputValue := some x } else s
    let s2 ← (outputPipes W v).foldlM (fun s ip =>
      activateVar W fuel { s with values := upd s.values ip.2 (some x), actPipe := upd s.actPipe ip.2 true } ip.1.output x) s1
    .ok { s2 with actVar := upd s2.actVar v true }

/-- The fuel used below: a chain of distinct pipes is not longer than the list of pipes (`C29_fuel`).  Used for workflow/core.py 1989-1993. -/
def fuelOf (W : Workflow α) : Nat := W.pipes.length + 1

/-- `_activate_pipe`: workflow/core.py 1989-1993. -/
def activatePipe (W : Workflow α) (s : St α) (ip : Pipe × Nat) (x : α) : Except PyErr (St α) :=
  activateVar W (fuelOf W) { s with values := upd s.values ip.2 (some x), actPipe := upd s.actPipe ip.2 true } ip.1.output x

/-- `self.input_values[input_index] = value`: workflow/core.py 2016-2017 (the entry of key `None`, written when the
variable is not an input, is never read). -/
def noteInput (W : Workflow α) (s : St α) (v : Nat) (x : α) : St α :=
  match inputIndex W v with
  | some k => { s with inputValues := upd s.inputValues k (some x) }
  | none => s

/-- `_activate_input`: workflow/core.py 2012-2021.  The result of `value_type_check` is ignored by the code (2015). -/
def activateInput (W : Workflow α) (s : St α) (v : Nat) (x : α) : Except PyErr (St α) := do
  let s ← activateVar W (fuelOf W) (noteInput W s v x) v x
  (outputPipes W v).foldlM (fun s ip => activatePipe W s ip x) s

/-- The body of the loop of `activate_inputs`, for the input `v` of index `k`: workflow/core.py 2073-2082. -/
def activateOne (W : Workflow α) (check : Bool) (s : St α) (k v : Nat) : Except PyErr (St α) :=
  match s.inputValues k with
  | some x => activateInput W s v x
  | none => match W.default v with
    | some d => activateInput W s v d
    | none => if W.lockFlag v then .error .valueError else if check then .error .valueError else .ok s

/-- The loop of `activate_inputs` on the inputs from index `k` on: workflow/core.py 2072-2082. -/
def activateInputsLoop (W : Workflow α) (check : Bool) : Nat → List Nat → St α → Except PyErr (St α)
  | _, [], s => .ok s
  | k, v :: rest, s => do
    let s ← activateOne W check s k v
    activateInputsLoop W check (k + 1) rest s

/-- `activate_inputs`: workflow/core.py 2070-2082. -/
def activateInputs (W : Workflow α) (check : Bool) (s : St α) : Except PyErr (St α) :=
  activateInputsLoop W check 0 (inputs W) s

/-- `WorkflowState(workflow, input_values)`: workflow/core.py 1649-1673, 1266-1268. -/
def startRun (W : Workflow α) (vals : Nat → Option α) : Except PyErr (St α) :=
  activateInputs W false { inputValues := vals }

/-- `_block_activable_by_inputs`: workflow/core.py 2032-2037. -/
def byInputs (s : St α) (b : Block α) : Bool := b.inputs.all s.actVar

/-- A block is in `_activable_blocks()`: workflow/core.py 2023-2030.  `rt` is `runtime_blocks`, which only depends on the
workflow.  Simplification: `rt` is computed once for each operation. -/
def activable (W : Workflow α) (rt : List Nat) (s : St α) (i : Nat) : Bool :=
  match W.blocks[i]? with
  | none => false
  | some b => byInputs s b && (!s.actBlock i || !rt.contains i)

/-- The value read for one input in `_evaluate_block`: workflow/core.py 2048-2055. -/
def readOne (W : Workflow α) (s : St α) (v : Nat) : Except PyErr α :=
  match inputPipe W v with
  | none => match inputIndex W v with
    | none => .error .keyError
    | some k => match s.inputValues k with
      | none => .error .keyError
      | some x => .ok x
  | some p => match s.values p with
    | none => .error .keyError
    | some x => .ok x

/-- The reading of the inputs in `_evaluate_block`: workflow/core.py 2047-2056. -/
def readInputs (W : Workflow α) : List Nat → St α → Except PyErr (List α × St α)
  | [], s => .ok ([], s)
  | v :: rest, s => do
    let x ← readOne W s v
    let s ← activateVar W (fuelOf W) s v x
    let (xs, s) ← readInputs W rest s
    .ok (x :: xs, s)

/-- The loop on `zip(block.outputs, output_values)`: workflow/core.py 1998-2000. -/
def activateOutputs (W : Workflow α) : List Nat → List α → St α → Except PyErr (St α)
  | o :: os, y :: ys, s => do
    let s ← activateVar W (fuelOf W) s o y
    activateOutputs W os ys s
  | _, _, s => .ok s

/-- `_evaluate_block`: workflow/core.py 2039-2068, with `_activate_block` (1995-2001). -/
def evaluateBlock (W : Workflow α) (s : St α) (i : Nat) : Except PyErr (St α × List α) :=
  match W.blocks[i]? with
  | none => .error .indexError
  | some b => do
    let (xs, s) ← readInputs W b.inputs s
    let ys ← b.eval xs
    let s := { s with evaluated := s.evaluated ++ [i] }
    let s ← activateOutputs W b.outputs ys s
    .ok ({ s with actBlock := upd s.actBlock i true }, ys)

/-- `block_evaluation`: workflow/core.py 1928-1941; also returns whether the block was evaluated. -/
def blockEvaluation (W : Workflow α) (rt : List Nat) (s : St α) (i : Nat) : Except PyErr (St α × Bool) :=
  match W.blocks[i]? with
  | none => .error .indexError
  | some _ => do
    let s ← activateInputs W false s
    if activable W rt s i then do
      let (s, _) ← evaluateBlock W s i
      .ok (s, true)
    else .ok (s, false)

/-- `evaluate_next_block`: workflow/core.py 1943-1951. -/
def evaluateNext (W : Workflow α) (rt : List Nat) (s : St α) : Except PyErr (St α × Option Nat) := do
  let s ← activateInputs W false s
  match (List.range W.blocks.length).filter (activable W rt s) with
  | [] => .ok (s, none)
  | i :: _ => do
    let (s, _) ← blockEvaluation W rt s i
    .ok (s, some i)

/-- The `for` loop of `continue_run`: workflow/core.py 1963-1968. -/
def evalAll (W : Workflow α) (rt : List Nat) : List Nat → St α → Except PyErr (St α)
  | [], s => .ok s
  | i :: rest, s => do
    let (s, _) ← blockEvaluation W rt s i
    evalAll W rt rest s

/-- The `while` loop of `continue_run`, with a bound on the number of turns; `none` when the bound is reached with
something left to do: workflow/core.py 1958-1968. -/
def continueLoop (W : Workflow α) (rt : List Nat) : Nat → St α → Except PyErr (Option (St α))
  | 0, _ => .ok none
  | n + 1, s => match rt.filter (activable W rt s) with
    | [] => .ok (some s)
    | bs => do
      let s ← evalAll W rt bs s
      continueLoop W rt n s

/-- `continue_run`: workflow/core.py 1953-1969, with a bound on the number of turns of the `while` loop. -/
def continueRun (W : Workflow α) (rt : List Nat) (turns : Nat) (s : St α) : Except PyErr (Option (St α)) := do
  let s ← activateInputs W false s
  continueLoop W rt turns s

/-- The `for` loop of `evaluate_branch`, `done` being the keys of `evaluated_blocks`: workflow/core.py 1982-1985. -/
def branchStep (W : Workflow α) : List Nat → St α → Except PyErr (St α)
  | [], s => .ok s
  | i :: rest, s => do
    let (s, _) ← evaluateBlock W s i
    branchStep W rest s

/-- The `while` loop of `evaluate_branch`: workflow/core.py 1978-1986. -/
def branchLoop (W : Workflow α) (rt blocks : List Nat) : Nat → List Nat → St α → Except PyErr (St α × List Nat)
  | 0, done, s => .ok (s, done)
  | n + 1, done, s =>
    if done.length = blocks.length then .ok (s, done)
    else do
      let next := blocks.filter (fun i => activable W rt s i && !done.contains i)
      let s ← branchStep W next s
      branchLoop W rt blocks n (addNew done next) s

/-- `evaluate_branch`: workflow/core.py 1971-1987; returns the state and the keys of `evaluated_blocks`. -/
def evaluateBranch (W : Workflow α) (rt blocks : List Nat) (s : St α) : Except PyErr (St α × List Nat) := do
  let s ← activateInputs W false s
  if blocks.any (activable W rt s) then branchLoop W rt blocks (blocks.length + 1) [] s else .error .workflowError

/-- `progress`: workflow/core.py 1915-1926.  The list of runtime blocks always holds the output block. -/
def progress (rt : List Nat) (s : St α) : Rat :=
  ((rt.filter s.actBlock).length : Rat) / (rt.length : Rat)

/-- `to_workflow_run`, without the drop of the values of the pipes which are not memorized: workflow/core.py
2084-2091. -/
def toWorkflowRun (rt : List Nat) (s : St α) : Except PyErr (St α) :=
  if progress rt s = 1 then .ok s else .error .valueError

/-- `default_values`: workflow/core.py 832-834. -/
def defaultValues (W : Workflow α) (k : Nat) : Option α :=
  match (inputs W)[k]? with
  | some v => W.default v
  | none => none

/-- The comprehension of `input_values`: workflow/core.py 1230.  The user gives a list of (index, value) with distinct
indices.  Simplification: negative indices are not represented. -/
def allowedValues (W : Workflow α) : List (Nat × α) → Except PyErr (List (Nat × α))
  | [] => .ok []
  | (k, x) :: rest => match (inputs W)[k]? with
    | none => .error .indexError
    | some v => do
      let l ← locked W v
      let r ← allowedValues W rest
      .ok (if l then r else (k, x) :: r)

/-- `input_values`: workflow/core.py 1227-1233. -/
def inputValues (W : Workflow α) (user : List (Nat × α)) : Except PyErr (Nat → Option α) := do
  let a ← allowedValues W user
  .ok (fun k => match a.lookup k with
    | some x => some x
    | none => defaultValues W k)

/-- `Workflow.run`: workflow/core.py 1235-1264.  The bound given to `continue_run` is never reached (`C29_ends`); `none`
would mean that it is. -/
def run (W : Workflow α) (so : SetOrder) (user : List (Nat × α)) : Except PyErr (Option (St α)) := do
  let vals ← inputValues W user
  let s ← startRun W vals
  let s ← activateInputs W true s
  let rt ← runtimeBlocks W so
  match ← continueRun W rt (W.blocks.length + 1) s with
  | none => .ok none
  | some s => do
    let s ← toWorkflowRun rt s
    .ok (some s)

end DC.Wkf
