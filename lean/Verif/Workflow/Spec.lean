import Verif.Workflow.Engine
import Mathlib.Logic.Relation
/- Specification vocabulary for workflows. -/
namespace DC.Wkf

variable {α : Type}

/-- A pipe goes from `v` to `w`. -/
def Piped (W : Workflow α) (v w : Nat) : Prop := ∃ p ∈ W.pipes, p.input = v ∧ p.output = w

/-- Following pipes leads from `v` to `w`. -/
def Flow (W : Workflow α) : Nat → Nat → Prop := Relation.ReflTransGen (Piped W)

/-- The value `x` is what variable `v` must hold, given the values `vals` of the workflow inputs: it is the value of an
input, or comes through a pipe, or is computed by a block from what its inputs must hold.  This says nothing of the order
of the evaluations. -/
inductive Den (W : Workflow α) (vals : Nat → Option α) : Nat → α → Prop
  | input {k v x} : (inputs W)[k]? = some v → vals k = some x → Den W vals v x
  | pipe {p x} : p ∈ W.pipes → Den W vals p.input x → Den W vals p.output x
  | block {b xs ys o y} : b ∈ W.blocks → xs.length = b.inputs.length → (∀ vx ∈ b.inputs.zip xs, Den W vals vx.1 vx.2) →
      b.eval xs = .ok ys → (o, y) ∈ b.outputs.zip ys → Den W vals o y

/-- A workflow as users build it: variables belong to one block, pipes go from block outputs or free variables to block
inputs, each fed by one pipe, without cycle. -/
structure WellFormed (W : Workflow α) : Prop where
  distinct : (blockVars W).Nodup
  single : (W.pipes.map (·.output)).Nodup
  target : ∀ p ∈ W.pipes, ∃ b ∈ W.blocks, p.output ∈ b.inputs
  source : ∀ p ∈ W.pipes, ∀ b ∈ W.blocks, p.input ∉ b.inputs
  acyclic : ∃ rank : Nat → Nat, (∀ p ∈ W.pipes, rank p.input < rank p.output) ∧
    ∀ b ∈ W.blocks, ∀ i ∈ b.inputs, ∀ o ∈ b.outputs, rank i < rank o

/-- Block `i` receives, through a pipe, what block `j` produces. -/
def Feeds (W : Workflow α) (j i : Nat) : Prop :=
  ∃ b c p, W.blocks[i]? = some b ∧ W.blocks[j]? = some c ∧ p ∈ W.pipes ∧ p.output ∈ b.inputs ∧ p.input ∈ c.outputs

/-- The output of the workflow is an output of block `i`. -/
def OutputOf (W : Workflow α) (i : Nat) : Prop := ∃ b o, W.blocks[i]? = some b ∧ W.output = some o ∧ o ∈ b.outputs

/-- Block `i` leads to the output: it produces it, or feeds a block which leads to it. -/
inductive Leads (W : Workflow α) : Nat → Prop
  | output {i} : OutputOf W i → Leads W i
  | feeds {i j} : Leads W i → Feeds W j i → Leads W j

/-- The value an input must be run with: its default value when it is locked, else the value given by the user, else its
default value. -/
def expected (W : Workflow α) (user : List (Nat × α)) (k : Nat) : Option α :=
  match (inputs W)[k]? with
  | none => none
  | some v => if W.lockFlag v then W.default v else match user.lookup k with
    | some x => some x
    | none => W.default v

/-- The states a user can reach with the API, when the inputs of the workflow receive the values `V`: create a state with
some of the inputs, give other inputs, evaluate blocks in any order, evaluate branches, continue the run. -/
inductive Reached (W : Workflow α) (V : Nat → Option α) : St α → Prop
  | start {vals s} : (∀ k v x, (inputs W)[k]? = some v → (vals k = some x ∨ vals k = none ∧ W.default v = some x) →
      V k = some x) → startRun W vals = .ok s → Reached W V s
  | give {s s' k v x} : Reached W V s → (inputs W)[k]? = some v → V k = some x → activateInput W s v x = .ok s' →
      Reached W V s'
  | activate {s s' check} : Reached W V s → activateInputs W check s = .ok s' → Reached W V s'
  | block {s s' rt i r} : Reached W V s → blockEvaluation W rt s i = .ok (s', r) → Reached W V s'
  | next {s s' rt r} : Reached W V s → evaluateNext W rt s = .ok (s', r) → Reached W V s'
  | branch {s s' rt bs r} : Reached W V s → evaluateBranch W rt bs s = .ok (s', r) → Reached W V s'
  | continue {s s' rt n} : Reached W V s → continueRun W rt n s = .ok (some s') → Reached W V s'

end DC.Wkf
