import Verif.Values.Basic
/-
Structure of a workflow and look-ups in it.
Source: dessia_common/workflow/core.py 46-100, 176-275, 345-474, 845-1107.

Variables are compared by identity in the code (`_eq_is_data_eq = False`): they are natural numbers here.  Blocks and
pipes are designated by their index in the lists of the workflow (a block or pipe object listed twice is not
represented).  `α` is the type of the values which flow in the workflow.
-/
namespace DC.Wkf

/-- A block: workflow/core.py 176-252.  `eval` is `evaluate` with the values of the inputs in port order.
Simplifications: the evaluation is a function of its inputs (no side effect, no randomness); `progress_callback` and the
keyword arguments are dropped. -/
structure Block (α : Type) where
  inputs : List Nat
  outputs : List Nat
  eval : List α → Except PyErr (List α)

/-- A pipe: workflow/core.py 255-275. -/
structure Pipe where
  input : Nat
  output : Nat
  memorize : Bool := false
  deriving DecidableEq, Repr

/-- A workflow: workflow/core.py 345-409.  `default` and `lockFlag` are the `default_value` (`none` for UNDEFINED) and
`_locked` attributes of the variables (46-100).  Simplification: names, types, positions and documentation are left
out. -/
structure Workflow (α : Type) where
  blocks : List (Block α)
  pipes : List Pipe
  output : Option Nat
  default : Nat → Option α
  lockFlag : Nat → Bool

variable {α : Type}

/-- `variables` after the loop on `handle_block`: workflow/core.py 379-380, 460-461. -/
def blockVars (W : Workflow α) : List Nat := W.blocks.flatMap (fun b => b.inputs ++ b.outputs)

/-- `handle_pipe` on the pair (`variables`, `nonblock_variables`): workflow/core.py 440-451. -/
def handlePipe (vn : List Nat × List Nat) (p : Pipe) : List Nat × List Nat :=
  let vn := if p.input ∈ vn.1 then vn else (vn.1 ++ [p.input], vn.2 ++ [p.input])
  if p.output ∈ vn.1 then vn else (vn.1 ++ [p.output], vn.2 ++ [p.output])

/-- `variables` and `nonblock_variables` at the end of the constructor: workflow/core.py 373-383. -/
def varsAndNbvs (W : Workflow α) : List Nat × List Nat := W.pipes.foldl handlePipe (blockVars W, [])

/-- `Workflow.variables`: workflow/core.py 373-383. -/
def allVariables (W : Workflow α) : List Nat := (varsAndNbvs W).1

/-- `Workflow.nonblock_variables`: workflow/core.py 374-383. -/
def nbvs (W : Workflow α) : List Nat := (varsAndNbvs W).2

/-- `len(nx.ancestors(graph, v)) != 0`, for a variable of the graph of lines 860-874: `networkx` returns the other nodes
from which `v` can be reached, so there is one iff an edge enters `v` from an other node.  The edges entering a
variable are those from a block to its outputs (868-869) and the pipes (872-873).  workflow/core.py 387, 860-874. -/
def hasAncestor (W : Workflow α) (v : Nat) : Bool :=
  W.blocks.any (fun b => b.outputs.contains v) || W.pipes.any (fun p => p.output == v && p.input != v)

/-- `Workflow.inputs`: workflow/core.py 387. -/
def inputs (W : Workflow α) : List Nat := (allVariables W).filter (fun v => !hasAncestor W v)

/-- `variable_input_pipe`: workflow/core.py 951-957. -/
def inputPipe (W : Workflow α) (v : Nat) : Option Nat := W.pipes.findIdx? (fun p => p.output == v)

/-- `variable_output_pipes`: workflow/core.py 959-961; the pipes with their indices. -/
def outputPipes (W : Workflow α) (v : Nat) : List (Pipe × Nat) := W.pipes.zipIdx.filter (fun ip => ip.1.input == v)

/-- `block_incoming_pipes`: workflow/core.py 971-973. -/
def blockIncoming (W : Workflow α) (b : Block α) : List (Option Nat) := b.inputs.map (inputPipe W)

/-- `block_outgoing_pipes`: workflow/core.py 975-980. -/
def blockOutgoing (W : Workflow α) (b : Block α) : List Nat := b.outputs.flatMap (fun o => (outputPipes W o).map (·.2))

/-- `pipes_between_blocks`: workflow/core.py 963-969. -/
def pipesBetween (W : Workflow α) (b c : Block α) : List Nat :=
  (blockOutgoing W b).filter (fun p => (blockIncoming W c).contains (some p))

/-- `upstream_variable`: workflow/core.py 1023-1032. -/
def upstreamVar (W : Workflow α) (v : Nat) : Option Nat := do
  let i ← inputPipe W v
  let p ← W.pipes[i]?
  some p.input

/-- `get_upstream_nbv`: workflow/core.py 1014-1021. -/
def upstreamNbv (W : Workflow α) (v : Nat) : Nat :=
  if (nbvs W).isEmpty then v
  else match upstreamVar W v with
    | some u => if (nbvs W).contains u then u else v
    | none => v

/-- Global address of a variable: workflow/core.py 1048-1067. -/
inductive Addr where
  | nbv (i : Nat)
  | port (block : Nat) (side : Bool) (i : Nat)
  deriving DecidableEq, Repr

/-- The loop on the blocks in `variable_indices` (`side = false` for an input), from block number `k` on:
workflow/core.py 1058-1062. -/
def findPort (v : Nat) : Nat → List (Block α) → Option Addr
  | _, [] => none
  | k, b :: rest =>
    if v ∈ b.inputs then some (.port k false (b.inputs.idxOf v))
    else if v ∈ b.outputs then some (.port k true (b.outputs.idxOf v))
    else findPort v (k + 1) rest

/-- `variable_indices`: workflow/core.py 1048-1067 (the case of `None` is treated by the callers). -/
def variableIndices (W : Workflow α) (v : Nat) : Except PyErr Addr :=
  match findPort v 0 W.blocks with
  | some a => .ok a
  | none =>
    let u := upstreamNbv W v
    if u ∈ nbvs W then .ok (.nbv ((nbvs W).idxOf u)) else .error .workflowError

/-- `variable_from_index`: workflow/core.py 845-851 (IndexError out of the lists). -/
def variableFromIndex (W : Workflow α) : Addr → Except PyErr Nat
  | .nbv i => match (nbvs W)[i]? with
    | some v => .ok v
    | none => .error .indexError
  | .port b side i => match W.blocks[b]? with
    | none => .error .indexError
    | some blk => match (if side then blk.outputs else blk.inputs)[i]? with
      | some v => .ok v
      | none => .error .indexError

/-- `block_from_variable`: workflow/core.py 1073-1076.  Unpacking an integer address, or `None`, is a TypeError. -/
def blockFromVariable (W : Workflow α) : Option Nat → Except PyErr Nat
  | none => .error .typeError
  | some v => match variableIndices W v with
    | .ok (.port b _ _) => .ok b
    | .ok (.nbv _) => .error .typeError
    | .error e => .error e

/-- `input_index`: workflow/core.py 1091-1096. -/
def inputIndex (W : Workflow α) (v : Nat) : Option Nat :=
  let u := upstreamNbv W v
  if u ∈ inputs W then some ((inputs W).idxOf u) else none

/-- `Variable.locked`: workflow/core.py 62-69. -/
def locked (W : Workflow α) (v : Nat) : Except PyErr Bool :=
  if W.lockFlag v then (if (W.default v).isSome then .ok true else .error .valueError) else .ok false

/-- The result of `block_upstream_variables`: workflow/core.py 991. -/
structure Upstream where
  available : List Nat := []
  nonblock : List Nat := []
  wired : List Nat := []
  locked : List Nat := []
  deriving DecidableEq, Repr

/-- The loop of `block_upstream_variables`: workflow/core.py 992-1003. -/
def upstreamLoop (W : Workflow α) (u : Upstream) : List Nat → Except PyErr Upstream
  | [] => .ok u
  | i :: rest => match upstreamVar W i with
    | none => do
      let l ← locked W i
      upstreamLoop W (if l then { u with locked := u.locked ++ [i] } else { u with available := u.available ++ [i] }) rest
    | some w =>
      if w ∈ nbvs W then do
        let l ← locked W w
        upstreamLoop W (if l then { u with locked := u.locked ++ [w] } else { u with nonblock := u.nonblock ++ [w] }) rest
      else upstreamLoop W { u with wired := u.wired ++ [w] } rest

/-- `block_upstream_variables`: workflow/core.py 982-1003. -/
def blockUpstream (W : Workflow α) (b : Block α) : Except PyErr Upstream := upstreamLoop W {} b.inputs

/-- How `list(set(...))` orders its elements: any function returning each element once.  workflow/core.py 1009, 1046. -/
structure SetOrder where
  list : List Nat → List Nat
  nodup : ∀ l, (list l).Nodup
  mem : ∀ l x, x ∈ list l ↔ x ∈ l

/-- The comprehension `[self.block_from_variable(v) for v in ...]`: workflow/core.py 1008. -/
def blocksOf (W : Workflow α) : List Nat → Except PyErr (List Nat)
  | [] => .ok []
  | v :: rest => do
    let b ← blockFromVariable W (some v)
    let bs ← blocksOf W rest
    .ok (b :: bs)

/-- `upstream_blocks`: workflow/core.py 1005-1009 (block and result given by their indices). -/
def upstreamBlocks (W : Workflow α) (so : SetOrder) (b : Nat) : Except PyErr (List Nat) :=
  match W.blocks[b]? with
  | none => .error .indexError
  | some blk => do
    let u ← blockUpstream W blk
    let bs ← blocksOf W u.wired
    .ok (so.list bs)

/-- `block_upstreams.extend(...)` for each block of a level: workflow/core.py 885-887. -/
def levelUp (W : Workflow α) (so : SetOrder) : List Nat → Except PyErr (List Nat)
  | [] => .ok []
  | b :: rest => do
    let u ← upstreamBlocks W so b
    let us ← levelUp W so rest
    .ok (u ++ us)

/-- `for candidate in block_upstreams: if candidate not in runtime_blocks: append`: workflow/core.py 889-891. -/
def addNew (acc : List Nat) (l : List Nat) : List Nat :=
  l.foldl (fun acc c => if c ∈ acc then acc else acc ++ [c]) acc

/-- The `while` loop of `runtime_blocks`, with the number of turns it may still do: workflow/core.py 883-892. -/
def runtimeLoop (W : Workflow α) (so : SetOrder) : Nat → List Nat → List Nat → Except PyErr (List Nat)
  | 0, _, acc => .ok acc
  | n + 1, level, acc =>
    if level.isEmpty then .ok acc
    else do
      let next ← levelUp W so level
      runtimeLoop W so n next (addNew acc next)

/-- `runtime_blocks`: workflow/core.py 876-893.  The loop turns while `i <= len(self.blocks)`, from `i = 0`. -/
def runtimeBlocks (W : Workflow α) (so : SetOrder) : Except PyErr (List Nat) := do
  let o ← blockFromVariable W W.output
  let ups ← upstreamBlocks W so o
  runtimeLoop W so (W.blocks.length + 1) ups ([o] ++ ups)

end DC.Wkf
