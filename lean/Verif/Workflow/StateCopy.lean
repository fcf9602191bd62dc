import Verif.Workflow.Engine
/-
Copy, hash and equality of the states of execution, and of the runs.
Source: dessia_common/workflow/core.py 1577-1597, 1675-1741, 1915-1926, 2084-2091, 2140-2146.
-/
namespace DC.Wkf

variable {α : Type}

/-! ### Copy -/

/-- The copy of `input_values`, `keys` being the keys of the dict: workflow/core.py 1680, with `deepcopy_dict`
(utils/copy.py 72-85).  `cp` is `deepcopy_value`, which raises for the types it does not know (utils/copy.py 69).
Simplification: the memo which makes equal objects one object in the copy is left out. -/
def copyInputs (cp : α → Except PyErr α) (s : St α) : List Nat → Except PyErr (List (Nat × α))
  | [] => .ok []
  | k :: rest => match s.inputValues k with
    | none => .error .keyError
    | some x => do
      let y ← cp x
      let r ← copyInputs cp s rest
      .ok ((k, y) :: r)

/-- The copy of the output: workflow/core.py 1700. -/
def copyResult (cp : α → Except PyErr α) : Option α → Except PyErr (Option α)
  | none => .ok none
  | some x => do
    let y ← cp x
    .ok (some y)

/-- `pipe_variable_indices`: workflow/core.py 947-949. -/
def pipeAddr (W : Workflow α) (p : Pipe) : Except PyErr (Addr × Addr) := do
  let a ← variableIndices W p.input
  let b ← variableIndices W p.output
  .ok (a, b)

/-- `pipe_from_variable_indices`, from the pipe of index `i` on: workflow/core.py 937-945. -/
def pipeFrom (W : Workflow α) (a : Addr × Addr) : Nat → List Pipe → Except PyErr Nat
  | _, [] => .error .valueError
  | i, p :: rest => do
    let b ← pipeAddr W p
    if b = a then .ok i else pipeFrom W a (i + 1) rest

/-- The loop on `values`, on the pipes of `W` from index `i` on: workflow/core.py 1681-1685.  The values are not copied.
Simplification: the pipes are taken in the order of the workflow. -/
def copyValues (W W' : Workflow α) (s : St α) : Nat → List Pipe → (Nat → Option α) → Except PyErr (Nat → Option α)
  | _, [], acc => .ok acc
  | i, p :: rest, acc => match s.values i with
    | none => copyValues W W' s (i + 1) rest acc
    | some x => do
      let a ← pipeAddr W p
      let j ← pipeFrom W' a 0 W'.pipes
      copyValues W W' s (i + 1) rest (upd acc j (some x))

/-- The loop on `activated_items`, for the variables: workflow/core.py 1688-1690. -/
def copyActVars (W W' : Workflow α) (s : St α) : List Nat → (Nat → Bool) → Except PyErr (Nat → Bool)
  | [], acc => .ok acc
  | v :: rest, acc => do
    let a ← variableIndices W v
    let u ← variableFromIndex W' a
    copyActVars W W' s rest (upd acc u (s.actVar v))

/-- The loop on `activated_items`, for the blocks or the pipes, of indices in a list: workflow/core.py 1691-1694.  `n` is
the number of blocks or pipes of the copy. -/
def copyActItems (n : Nat) (act : Nat → Bool) : List Nat → (Nat → Bool) → Except PyErr (Nat → Bool)
  | [], acc => .ok acc
  | i :: rest, acc => if i < n then copyActItems n act rest (upd acc i (act i)) else .error .indexError

/-- What is given to the constructor by `WorkflowState.__deepcopy__`: workflow/core.py 1675-1702.  `W'` is the copy of the
workflow (`deepCopy` in `Persist.lean`).  The blocks of the `ExecutionInfo` are found in the memo, where the copy of the
workflow has put them (1679, 1698). -/
def copyParts (cp : α → Except PyErr α) (W W' : Workflow α) (keys : List Nat) (s : St α) : Except PyErr (St α) := do
  let ins ← copyInputs cp s keys
  let vals ← copyValues W W' s 0 W.pipes (fun _ => none)
  let av ← copyActVars W W' s (allVariables W) (fun _ => false)
  let ab ← copyActItems W'.blocks.length s.actBlock (List.range W.blocks.length) (fun _ => false)
  let ap ← copyActItems W'.pipes.length s.actPipe (List.range W.pipes.length) (fun _ => false)
  let out ← copyResult cp s.outputValue
  .ok { inputValues := fun k => ins.lookup k, values := vals, actPipe := ap, actVar := av, actBlock := ab,
        outputValue := out, evaluated := s.evaluated }

/-- `WorkflowState.__deepcopy__`: workflow/core.py 1675-1702.  The constructor activates the inputs (1672). -/
def copyState (cp : α → Except PyErr α) (W W' : Workflow α) (keys : List Nat) (s : St α) : Except PyErr (St α) := do
  let r ← copyParts cp W W' keys s
  activateInputs W' false r

/-- The constructor of `WorkflowRun` drops the values of the pipes which are not memorized: workflow/core.py 2140-2146. -/
def keepMemorized (W : Workflow α) (s : St α) : St α :=
  { s with values := fun j => match W.pipes[j]? with
    | some p => if p.memorize then s.values j else none
    | none => none }

/-- The constructor of `WorkflowRun`: workflow/core.py 2140-2146, 1672. -/
def makeRun (W : Workflow α) (s : St α) : Except PyErr (St α) := activateInputs W false (keepMemorized W s)

/-- `__deepcopy__` of a `WorkflowRun`: workflow/core.py 1675-1702, 2140-2146. -/
def copyRun (cp : α → Except PyErr α) (W W' : Workflow α) (keys : List Nat) (s : St α) : Except PyErr (St α) := do
  let r ← copyParts cp W W' keys s
  makeRun W' r

/-! ### Hash and equality -/

/-- What the comparison of states asks of values: `choose_hash` (utils/diff.py 175-183), of `None` too, and `==`. -/
structure ValueEq (α : Type) where
  hash : Option α → Int
  eq : Option α → Option α → Bool

/-- The number of entries of `values`: workflow/core.py 1708. -/
def countValues (W : Workflow α) (s : St α) : Nat := ((List.range W.pipes.length).filter fun j => (s.values j).isSome).length

/-- `WorkflowState._data_hash`: workflow/core.py 1704-1709.  `h` is the hash of the workflow, `keys` the keys of
`input_values`. -/
def stateHash (E : ValueEq α) (W : Workflow α) (h : Int) (keys : List Nat) (s : St α) : Int :=
  (h + E.hash s.outputValue + (keys.map fun k : Nat => (k : Int) * E.hash (s.inputValues k)).sum + 7 * (countValues W s : Int))
    % 1000000000

/-- The loop on the values of the inputs in `_data_eq`: workflow/core.py 1718-1724.  `file k` is `is_file_related` of the
input of number `k`.  The numbers are those of the keys of one of the states or the other. -/
def eqInputs (E : ValueEq α) (W : Workflow α) (file : Nat → Bool) (s s' : St α) : List Nat → Except PyErr Bool
  | [] => .ok true
  | k :: rest =>
    if E.eq (s.inputValues k) (s'.inputValues k) then eqInputs E W file s s' rest
    else match (inputs W)[k]? with
      | none => .error .indexError
      | some _ => if file k then eqInputs E W file s s' rest else .ok false

/-- The loop on the blocks in `_data_eq`, from the block of index `i` on: workflow/core.py 1726-1735. -/
def eqBlocks (s s' : St α) : Nat → List (Block α × Block α) → Bool
  | _, [] => true
  | i, (b, c) :: rest =>
    s.actBlock i == s'.actBlock i &&
      (((b.inputs ++ b.outputs).zip (c.inputs ++ c.outputs)).all fun vu => s.actVar vu.1 == s'.actVar vu.2) &&
      eqBlocks s s' (i + 1) rest

/-- `WorkflowState._data_eq` of two states, or of two runs: workflow/core.py 1711-1741.  `same` is the equality of the
workflows, `rt` and `rt'` their runtime blocks. -/
def dataEqState (E : ValueEq α) (W W' : Workflow α) (same : Bool) (rt rt' : List Nat) (file : Nat → Bool)
    (keys keys' : List Nat) (s s' : St α) : Except PyErr Bool :=
  if !(decide (progress rt s = progress rt' s') && same && E.eq s.outputValue s'.outputValue) then .ok false
  else do
    let ins ← eqInputs E W file s s' (keys ++ keys')
    if !ins then .ok false
    else .ok (eqBlocks s s' 0 (W.blocks.zip W'.blocks) &&
      (List.range (min W.pipes.length W'.pipes.length)).all fun j => s.actPipe j == s'.actPipe j)

/-- `==` of two states, or of two runs, of workflows of hashes `h` and `h'`: core.py 116-129. -/
def eqState (E : ValueEq α) (W W' : Workflow α) (same : Bool) (h h' : Int) (rt rt' : List Nat) (file : Nat → Bool)
    (keys keys' : List Nat) (s s' : St α) : Except PyErr Bool :=
  if stateHash E W h keys s != stateHash E W' h' keys' s' then .ok false
  else dataEqState E W W' same rt rt' file keys keys' s s'

end DC.Wkf
