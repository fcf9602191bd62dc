import Verif.Workflow.Engine
/-
What the callback of a run is told, and running again a completed run.
Source: dessia_common/workflow/core.py 1235-1264, 1928-1969, 2039-2068, 2200-2203; dessia_common/workflow/blocks.py 255-264.

The callback `cb` may raise; `tells i xs` are the values which the method called by block `i` tells itself, given the values
of the inputs of the block.  The functions are those of `Workflow/Engine.lean`, with the list of the values told so far.
-/
namespace DC.Wkf

variable {α : Type}

/-- The calls of the callback by the method of a block: blocks.py 259-263.  A TypeError of the callback is caught, and the method
is called again without callback.  Simplification: the second call gives what the first one would have given. -/
def tellOwn (cb : Rat → Except PyErr Unit) : List Rat → Except PyErr (List Rat)
  | [] => .ok []
  | x :: rest => match cb x with
    | .ok _ => (tellOwn cb rest).map (x :: ·)
    | .error .typeError => .ok []
    | .error e => .error e

/-- `block_evaluation` with its callback: workflow/core.py 1928-1941, with the call at the end of `_evaluate_block` (2066-2067).
The values of the inputs are read once in the code; reading them changes no block. -/
def blockEvaluationT (W : Workflow α) (rt : List Nat) (tells : Nat → List α → List Rat) (cb : Rat → Except PyErr Unit) (s : St α)
    (i : Nat) : Except PyErr (St α × Bool × List Rat) :=
  match W.blocks[i]? with
  | none => .error .indexError
  | some b => do
    let s ← activateInputs W false s
    if activable W rt s i then do
      let (xs, s1) ← readInputs W b.inputs s
      let own ← tellOwn cb ((tells i xs).map fun x => progress rt s1 + x / W.blocks.length)
      let (s2, _) ← evaluateBlock W s i
      cb (progress rt s2 + progress rt s2 / W.blocks.length)
      cb (progress rt s2)
      .ok (s2, true, own ++ [progress rt s2 + progress rt s2 / W.blocks.length, progress rt s2])
    else .ok (s, false, [])

/-- The `for` loop of `continue_run` with its callback: workflow/core.py 1963-1968, when `export` is False. -/
def evalAllT (W : Workflow α) (rt : List Nat) (tells : Nat → List α → List Rat) (cb : Rat → Except PyErr Unit) :
    List Nat → St α → Except PyErr (St α × List Rat)
  | [], s => .ok (s, [])
  | i :: rest, s => do
    let (s, _, t) ← blockEvaluationT W rt tells cb s i
    cb (progress rt s)
    let (s', t') ← evalAllT W rt tells cb rest s
    .ok (s', t ++ progress rt s :: t')

/-- The `while` loop of `continue_run` with its callback, as `continueLoop`: workflow/core.py 1958-1968. -/
def continueLoopT (W : Workflow α) (rt : List Nat) (tells : Nat → List α → List Rat) (cb : Rat → Except PyErr Unit) :
    Nat → St α → Except PyErr (Option (St α) × List Rat)
  | 0, _ => .ok (none, [])
  | n + 1, s => match rt.filter (activable W rt s) with
    | [] => .ok (some s, [])
    | bs => do
      let (s, t) ← evalAllT W rt tells cb bs s
      let (r, t') ← continueLoopT W rt tells cb n s
      .ok (r, t ++ t')

/-- `Workflow.run` with its callback, as `run`: workflow/core.py 1235-1264, 1953-1969. -/
def runT (W : Workflow α) (so : SetOrder) (tells : Nat → List α → List Rat) (cb : Rat → Except PyErr Unit) (user : List (Nat × α)) :
    Except PyErr (Option (St α) × List Rat) := do
  let vals ← inputValues W user
  let s ← startRun W vals
  let s ← activateInputs W true s
  let rt ← runtimeBlocks W so
  let s ← activateInputs W false s
  match ← continueLoopT W rt tells cb (W.blocks.length + 1) s with
  | (none, t) => .ok (none, t)
  | (some s, t) => do
    let s ← toWorkflowRun rt s
    .ok (some s, t)

/-- Calling what was given as callback: `None` cannot be called.  Used for workflow/core.py 2200-2203. -/
def callback : Option (Rat → Except PyErr Unit) → Rat → Except PyErr Unit
  | none => fun _ => .error .typeError
  | some cb => cb

/-- `WorkflowRun.run_again`: workflow/core.py 2200-2203.  The callback is `None` unless one is given.  The name and the log are
dropped. -/
def runAgain (W : Workflow α) (so : SetOrder) (tells : Nat → List α → List Rat) (user : List (Nat × α))
    (cb : Option (Rat → Except PyErr Unit) := none) : Except PyErr (Option (St α) × List Rat) :=
  runT W so tells (callback cb) user

end DC.Wkf
