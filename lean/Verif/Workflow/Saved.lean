import Verif.Workflow.Engine
/-
A state of execution written in a dict and read back.
Source: dessia_common/workflow/core.py 426-438, 1577-1635, 1748-1856.
-/
namespace DC.Wkf

variable {α J : Type}

/-- What the state asks of the values it holds: how they are written (`serialize_with_pointers`) and read
(`deserialize`), whether `is_file_or_file_sequence` holds, and `recursive_type`, which may raise.
serialization.py 156-190, 259-275; types.py 277-293; called at workflow/core.py 1774-1797.
Simplification: the pointers to values already written are resolved, a value is read from what was written for it. -/
structure Codec (α J : Type) where
  ser : α → Except PyErr J
  des : J → Except PyErr α
  isFile : α → Bool
  typed : α → Except PyErr Unit

/-- The entries of the dict of a state: workflow/core.py 1761-1815.  The workflow is written apart (`Persist.lean`).
`evaluated` are the numbers of the blocks of `after_block_memory_usage` in the dict of the `ExecutionInfo` (1606-1613). -/
structure StD (J : Type) where
  inputValues : List (Nat × J)
  outputValue : Option J
  values : List (Nat × J)
  blocks : List Nat
  pipes : List Nat
  vars : List Addr
  evaluated : List Nat

/-- The loop on `input_values`: workflow/core.py 1769-1779.  `file k` says that the input of number `k` is among
`file_inputs` (426-428).  The keys are the numbers of the inputs which hold a value. -/
def saveInputs (C : Codec α J) (W : Workflow α) (file : Nat → Bool) (s : St α) : List Nat → Except PyErr (List (Nat × J))
  | [] => .ok []
  | k :: rest => match (inputs W)[k]?, s.inputValues k with
    | none, _ => .error .indexError
    | _, none => .error .keyError
    | some _, some x =>
      if file k then saveInputs C W file s rest
      else do
        let j ← C.ser x
        let r ← saveInputs C W file s rest
        .ok ((k, j) :: r)

/-- The entry `output_value`: workflow/core.py 1783-1794.  Simplification: an output which is `None` is written as any
other (the code drops it, and reads a missing entry as `None`). -/
def saveOutput (C : Codec α J) : Option α → Except PyErr (Option J)
  | none => .ok none
  | some x => do
    let j ← C.ser x
    C.typed x
    .ok (some j)

/-- What is written for the value of a pipe: workflow/core.py 1797-1808.  A value which cannot be written is dropped. -/
def savePipe (C : Codec α J) (p : Pipe) (x : α) : Except PyErr (Option J) :=
  if !C.isFile x && p.memorize then match C.ser x with
    | .ok j => .ok (some j)
    | .error .serializationError => .ok none
    | .error e => .error e
  else .ok none

/-- The loop on `values`, on the pipes from index `i` on: workflow/core.py 1796-1810.  Simplification: the pipes are taken
in the order of the workflow. -/
def saveValues (C : Codec α J) (s : St α) : Nat → List Pipe → Except PyErr (List (Nat × J))
  | _, [] => .ok []
  | i, p :: rest => match s.values i with
    | none => saveValues C s (i + 1) rest
    | some x => do
      let o ← savePipe C p x
      let r ← saveValues C s (i + 1) rest
      match o with
      | some j => .ok ((i, j) :: r)
      | none => .ok r

/-- `WorkflowState.to_dict` with pointers: workflow/core.py 1748-1818.  `keys` are the keys of `input_values`. -/
def saveState (C : Codec α J) (W : Workflow α) (file : Nat → Bool) (keys : List Nat) (s : St α) : Except PyErr (StD J) := do
  let ins ← saveInputs C W file s keys
  let out ← saveOutput C s.outputValue
  let vals ← saveValues C s 0 W.pipes
  let vars ← ((allVariables W).filter s.actVar).mapM (variableIndices W)
  .ok { inputValues := ins, outputValue := out, values := vals,
        blocks := (List.range W.blocks.length).filter s.actBlock,
        pipes := (List.range W.pipes.length).filter s.actPipe,
        vars := vars, evaluated := s.evaluated }

/-- The values of a dict whose keys are numbers: workflow/core.py 1838-1846. -/
def loadValues (C : Codec α J) : List (Nat × J) → Except PyErr (List (Nat × α))
  | [] => .ok []
  | (k, j) :: rest => do
    let x ← C.des j
    let r ← loadValues C rest
    .ok ((k, x) :: r)

/-- The values of the pipes: workflow/core.py 1837-1841, with the look-up of the pipe. -/
def loadPipes (C : Codec α J) (W : Workflow α) : List (Nat × J) → Except PyErr (List (Nat × α))
  | [] => .ok []
  | (k, j) :: rest => if k < W.pipes.length then do
      let x ← C.des j
      let r ← loadPipes C W rest
      .ok ((k, x) :: r)
    else .error .indexError

/-- The entry `output_value` read: workflow/core.py 1831-1835. -/
def loadOutput (C : Codec α J) : Option J → Except PyErr (Option α)
  | none => .ok none
  | some j => do
    let x ← C.des j
    .ok (some x)

/-- `activated_items` for the variables: workflow/core.py 1851-1852. -/
def loadVars (W : Workflow α) (vars : List Addr) (v : Nat) : Bool :=
  (allVariables W).contains v && match variableIndices W v with
    | .ok a => vars.contains a
    | .error _ => false

/-- The blocks of `after_block_memory_usage`, looked up by their numbers: workflow/core.py 1615-1623. -/
def loadEvaluated (W : Workflow α) : List Nat → Except PyErr (List Nat)
  | [] => .ok []
  | i :: rest => if i < W.blocks.length then do
      let r ← loadEvaluated W rest
      .ok (i :: r)
    else .error .keyError

/-- `WorkflowState.dict_to_object`: workflow/core.py 1821-1856.  The constructor activates the inputs (1672). -/
def loadState (C : Codec α J) (W : Workflow α) (d : StD J) : Except PyErr (St α) := do
  let out ← loadOutput C d.outputValue
  let vals ← loadPipes C W d.values
  let ins ← loadValues C d.inputValues
  let _ ← (allVariables W).mapM (variableIndices W)
  let ev ← loadEvaluated W d.evaluated
  activateInputs W false
    { inputValues := fun k => ins.lookup k
      values := fun j => vals.lookup j
      actPipe := fun j => decide (j < W.pipes.length) && d.pipes.contains j
      actVar := loadVars W d.vars
      actBlock := fun i => decide (i < W.blocks.length) && d.blocks.contains i
      outputValue := out
      evaluated := ev }

end DC.Wkf
