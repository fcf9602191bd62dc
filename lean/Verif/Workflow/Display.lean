import Verif.Workflow.Engine
/-
Branches of a workflow, pipes memorized for the displays and exports, and displays of the blocks of a run.
Source: dessia_common/workflow/core.py 379-401, 447-475, 615-665, 674-689, 895-937, 1011-1012, 1034-1046, 1892-1913,
1971-1987, 2084-2091, 2108-2120, 2143-2174.
-/
namespace DC.Wkf

variable {α : Type}

/-! ### Branches -/

/-- The `for` loop of `_branch_blocks` on the blocks of a level; returns `candidates` and `branch_blocks`:
workflow/core.py 908-914.  `cond` may raise. -/
def gatherTurn (W : Workflow α) (so : SetOrder) (cond : Nat → Except PyErr Bool) (last : Bool) :
    List Nat → List Nat → Except PyErr (List Nat × List Nat)
  | [], branch => .ok ([], branch)
  | u :: rest, branch => do
    let c ← cond u
    if c then do
      let us ← upstreamBlocks W so u
      let (cs, branch) ← gatherTurn W so cond last rest (u :: branch)
      .ok (us ++ cs, branch)
    else gatherTurn W so cond last rest (if last then u :: branch else branch)

/-- The `while` loop of `_branch_blocks`, with the number of turns it may still do: workflow/core.py 906-916. -/
def gatherLoop (W : Workflow α) (so : SetOrder) (cond : Nat → Except PyErr Bool) (last : Bool) :
    Nat → List Nat → List Nat → List Nat → Except PyErr (List Nat)
  | 0, _, _, branch => .ok branch
  | n + 1, candidates, level, branch =>
    if candidates.isEmpty then .ok branch
    else do
      let (cs, branch) ← gatherTurn W so cond last level branch
      gatherLoop W so cond last n cs (cs.filter (fun b => !branch.contains b)) branch

/-- `_branch_blocks`: workflow/core.py 902-917.  The loop turns while `i <= len(self.blocks)`, from `i = 0`. -/
def gather (W : Workflow α) (so : SetOrder) (cond : Nat → Except PyErr Bool) (last : Bool) (i : Nat) :
    Except PyErr (List Nat) := do
  let ups ← upstreamBlocks W so i
  gatherLoop W so cond last (W.blocks.length + 1) ups ups [i]

/-- `is_block_secondary`: workflow/core.py 895-897. -/
def isSecondary (W : Workflow α) (so : SetOrder) (i : Nat) : Except PyErr Bool := do
  let rt ← runtimeBlocks W so
  .ok (!rt.contains i)

/-- `has_upstream_block`: workflow/core.py 899-901. -/
def hasUpstream (W : Workflow α) (so : SetOrder) (i : Nat) : Except PyErr Bool := do
  let us ← upstreamBlocks W so i
  .ok (!us.isEmpty)

/-- `upstream_branch`: workflow/core.py 1011-1012. -/
def upstreamBranch (W : Workflow α) (so : SetOrder) (i : Nat) : Except PyErr (List Nat) :=
  gather W so (hasUpstream W so) true i

/-- The loop of `upstream_inputs` on the blocks of the branch: workflow/core.py 1043-1045. -/
def branchInputs (W : Workflow α) : List Nat → Except PyErr (List Nat)
  | [] => .ok []
  | i :: rest => match W.blocks[i]? with
    | none => .error .indexError
    | some b => do
      let u ← blockUpstream W b
      let l ← branchInputs W rest
      .ok (u.available ++ u.nonblock ++ l)

/-- `upstream_inputs`: workflow/core.py 1034-1046. -/
def upstreamInputs (W : Workflow α) (so : SetOrder) (v : Nat) : Except PyErr (List Nat) := do
  let i ← blockFromVariable W (some v)
  let branch ← upstreamBranch W so i
  let l ← branchInputs W branch
  .ok (so.list l)

/-! ### Memorized pipes -/

/-- `pipes_between_blocks`, by the indices of the blocks: workflow/core.py 963-969. -/
def between (W : Workflow α) (j i : Nat) : List Nat :=
  match W.blocks[j]?, W.blocks[i]? with
  | some c, some b => pipesBetween W c b
  | _, _ => []

/-- The loop of `secondary_branch_blocks` on the blocks of the branch: the pipes it memorizes.  workflow/core.py
930-936. -/
def branchMarks (W : Workflow α) (so : SetOrder) : List Nat → Except PyErr (List Nat)
  | [] => .ok []
  | i :: rest => do
    let us ← upstreamBlocks W so i
    let rt ← if us.isEmpty then .ok [] else runtimeBlocks W so
    let l ← branchMarks W so rest
    .ok ((us.filter rt.contains).flatMap (fun j => between W j i) ++ l)

/-- `secondary_branch_blocks`: the branch, and the pipes which are memorized.  workflow/core.py 919-937. -/
def secondaryBranch (W : Workflow α) (so : SetOrder) (i : Nat) : Except PyErr (List Nat × List Nat) := do
  let branch ← gather W so (isSecondary W so) false i
  let marks ← branchMarks W so branch
  .ok (branch, marks)

/-- What a block shows, as far as the selectors are concerned: nothing, a display (`_display_settings`, blocks.py 691-735),
or an export (`_export_format`, blocks.py 1460-1466, 1525-1530).  `selector` is the `selector` attribute of a display:
`none` when it is falsy, else the name of the view or the string itself; `shown` is `_displayable_input`. -/
inductive Role where
  | plain
  | display (type_ : String) (selector : Option String) (shown : Nat)
  | export (extension : String)
  deriving DecidableEq, Repr

/-- The name of a block and what it shows: blocks.py 691-735, workflow/core.py 176-190. -/
structure Face where
  name : String := ""
  role : Role := .plain

/-- `block in self.display_blocks`: workflow/core.py 645-648. -/
def Face.isDisplay (f : Face) : Bool := match f.role with
  | .display .. => true
  | _ => false

/-- `block in self.export_blocks`: workflow/core.py 674-677. -/
def Face.isExport (f : Face) : Bool := match f.role with
  | .export _ => true
  | _ => false

/-- `selector_name`: workflow/core.py 625-634. -/
def selectorName (f : Face) : String :=
  if f.name ≠ "" then f.name else match f.role with
    | .display t _ _ => t
    | .export e => e
    | .plain => "Block"

/-- `block_selector` for the block of index `i`: workflow/core.py 615-623. -/
def blockSelector (F : Nat → Face) (i : Nat) : String :=
  match (F i).role with
  | .display _ (some s) _ => s
  | _ => selectorName (F i) ++ " (" ++ toString i ++ ")"

/-- `display_blocks`: workflow/core.py 645-648. -/
def displayBlocks (W : Workflow α) (F : Nat → Face) : List Nat :=
  (List.range W.blocks.length).filter (fun i => (F i).isDisplay)

/-- `export_blocks`: workflow/core.py 674-677. -/
def exportBlocks (W : Workflow α) (F : Nat → Face) : List Nat :=
  (List.range W.blocks.length).filter (fun i => (F i).isExport)

/-- The pipe memorized by `handle_block`: workflow/core.py 463-468. -/
def shownMark (W : Workflow α) (F : Nat → Face) (i : Nat) : List Nat :=
  match (F i).role, W.blocks[i]? with
  | .display _ _ n, some b => match b.inputs[n]? with
    | some v => (inputPipe W v).toList
    | none => []
  | _, _ => []

/-- `branch_by_selector`: the entries in the order in which they are written, and the pipes memorized.  workflow/core.py
636-643. -/
def branchesOf (W : Workflow α) (so : SetOrder) (F : Nat → Face) :
    List Nat → Except PyErr (List (String × List Nat) × List Nat)
  | [] => .ok ([], [])
  | i :: rest => do
    let (branch, marks) ← secondaryBranch W so i
    let (l, m) ← branchesOf W so F rest
    .ok ((blockSelector F i, branch) :: l, marks ++ m)

/-- What the constructor of a workflow prepares for the displays and exports: workflow/core.py 379-401. -/
structure Views where
  displays : List (String × List Nat)
  exports : List (String × List Nat)
  marks : List Nat

/-- The part of the constructor which deals with displays and exports: workflow/core.py 379-401. -/
def setUp (W : Workflow α) (so : SetOrder) (F : Nat → Face) : Except PyErr Views := do
  let (d, m) ← branchesOf W so F (displayBlocks W F)
  let (e, m') ← branchesOf W so F (exportBlocks W F)
  .ok ⟨d, e, (List.range W.blocks.length).flatMap (shownMark W F) ++ m ++ m'⟩

/-- The entry of a dictionary whose entries are written in this order: the last one wins.  Used for workflow/core.py 1892-1913. -/
def lastEntry {β : Type} (l : List (String × β)) (k : String) : Option β :=
  ((l.filter (fun e => e.1 == k)).getLast?).map (·.2)

/-- `pipe.memorize`, after the constructor: workflow/core.py 436-438. -/
def memorized (W : Workflow α) (vw : Views) (j : Nat) : Bool :=
  match W.pipes[j]? with
  | some p => p.memorize || vw.marks.contains j
  | none => false

/-! ### Displays of a run -/

/-- The state made by the constructor of WorkflowRun, from a state which is complete: workflow/core.py 2084-2091,
2140-2146, 1649-1673. -/
def keepRun (W : Workflow α) (vw : Views) (s : St α) : Except PyErr (St α) :=
  activateInputs W false { s with values := fun j => if memorized W vw j then s.values j else none }

/-- Assignment of an entry of a dictionary keyed by blocks.  Used for workflow/core.py 1982-1985. -/
def setEntry {β : Type} (l : List (Nat × β)) (k : Nat) (x : β) : List (Nat × β) :=
  if (l.map (·.1)).contains k then l.map (fun e => if e.1 = k then (k, x) else e) else l ++ [(k, x)]

/-- The `for` loop of `evaluate_branch`, with the dictionary `evaluated_blocks`: workflow/core.py 1982-1985. -/
def branchStepOut (W : Workflow α) : List Nat → List (Nat × List α) → St α → Except PyErr (St α × List (Nat × List α))
  | [], done, s => .ok (s, done)
  | i :: rest, done, s => do
    let (s, ys) ← evaluateBlock W s i
    branchStepOut W rest (setEntry done i ys) s

/-- The `while` loop of `evaluate_branch`: workflow/core.py 1978-1986. -/
def branchLoopOut (W : Workflow α) (rt blocks : List Nat) :
    Nat → List (Nat × List α) → St α → Except PyErr (St α × List (Nat × List α))
  | 0, done, s => .ok (s, done)
  | n + 1, done, s =>
    if done.length = blocks.length then .ok (s, done)
    else do
      let (s, done) ← branchStepOut W
        (blocks.filter (fun i => activable W rt s i && !(done.map (·.1)).contains i)) done s
      branchLoopOut W rt blocks n done s

/-- `evaluate_branch` with the values it returns: workflow/core.py 1971-1987. -/
def evaluateBranchOut (W : Workflow α) (rt blocks : List Nat) (s : St α) : Except PyErr (St α × List (Nat × List α)) := do
  let s ← activateInputs W false s
  if blocks.any (activable W rt s) then branchLoopOut W rt blocks (blocks.length + 1) [] s else .error .workflowError

/-- The end of `block_display` and of `export`: `evaluated_blocks[block][0]`.  workflow/core.py 1909-1913, 2115-2119. -/
def firstOutput (done : List (Nat × List α)) (i : Nat) : Except PyErr α :=
  match done.lookup i with
  | none => .error .workflowError
  | some [] => .error .indexError
  | some (y :: _) => .ok y

/-- `block_display`, from the branches `branches`: workflow/core.py 1892-1913.  Simplification: the reference path given to
the block is part of its evaluation. -/
def blockDisplay (W : Workflow α) (so : SetOrder) (F : Nat → Face) (vw : Views) (s : St α) (i : Nat) :
    Except PyErr (St α × α) := do
  let s ← activateInputs W false s
  if i < W.blocks.length then
    match lastEntry vw.displays (blockSelector F i) with
    | none => .error .keyError
    | some branch => do
      let rt ← runtimeBlocks W so
      let (s, done) ← evaluateBranchOut W rt branch s
      let y ← firstOutput done i
      .ok (s, y)
  else .error .indexError

/-- `export`, up to the copy of the stream: workflow/core.py 2108-2119. -/
def blockExport (W : Workflow α) (so : SetOrder) (F : Nat → Face) (vw : Views) (s : St α) (i : Nat) :
    Except PyErr (St α × α) :=
  if i < W.blocks.length then
    match lastEntry vw.exports (blockSelector F i) with
    | none => .error .keyError
    | some branch => do
      let rt ← runtimeBlocks W so
      let (s, done) ← evaluateBranchOut W rt branch s
      let y ← firstOutput done i
      .ok (s, y)
  else .error .indexError

/-! ### Reference paths -/

/-- The index of the pipe named by the reference path of the display settings of a display block: workflow/core.py
655-659.  `self.pipes.index(None)` is a ValueError; without input of this number the path is `#`. -/
def referencePipe (W : Workflow α) (F : Nat → Face) (i : Nat) : Except PyErr (Option Nat) :=
  match (F i).role, W.blocks[i]? with
  | .display _ _ n, some b => match b.inputs[n]? with
    | some v => match inputPipe W v with
      | some j => .ok (some j)
      | none => .error .valueError
    | none => .ok none
  | _, _ => .error .attributeError

/-- `_get_from_path("#/values/j")` on a run: workflow/core.py 2156-2174.  The generic look-up fails, as the keys of `values`
are pipes. -/
def valueAt (W : Workflow α) (s : St α) (j : Nat) : Except PyErr α :=
  if j < W.pipes.length then
    match s.values j with
    | some x => .ok x
    | none => .error .keyError
  else .error .indexError

end DC.Wkf
