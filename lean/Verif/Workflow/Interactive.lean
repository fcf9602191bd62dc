import Verif.Workflow.Spec
/-
Giving values to the inputs of a state.
Source: dessia_common/workflow/core.py 1102-1106, 1858-1882.

Simplifications: indices are natural numbers, and the keys of the values of `add_block_input_values`, which the code converts with
`int`, are already integers.
-/
namespace DC.Wkf

variable {α : Type}

/-- `block_inputs_global_indices`: workflow/core.py 1102-1106. -/
def blockInputIndices (W : Workflow α) (i : Nat) : Except PyErr (List Nat) :=
  match W.blocks[i]? with
  | none => .error .indexError
  | some b => .ok (b.inputs.filterMap (inputIndex W))

/-- `add_input_value`: workflow/core.py 1858-1860. -/
def addInputValue (W : Workflow α) (s : St α) (k : Nat) (x : α) : Except PyErr (St α) :=
  match (inputs W)[k]? with
  | none => .error .indexError
  | some v => activateInput W s v x

/-- The value which `add_several_input_values` gives to the input `v` of index `k`: workflow/core.py 1865-1875. -/
def valueToAdd (vals : Nat → Option α) (s : St α) (k v : Nat) : Except PyErr α :=
  match vals k with
  | some x => .ok x
  | none => if s.actVar v then
      match s.inputValues k with
      | some x => .ok x
      | none => .error .valueError
    else .error .valueError

/-- `add_several_input_values`: workflow/core.py 1862-1876. -/
def addSeveral (W : Workflow α) (vals : Nat → Option α) : List Nat → St α → Except PyErr (St α)
  | [], s => .ok s
  | k :: ks, s => match (inputs W)[k]? with
    | none => .error .indexError
    | some v => do
      let x ← valueToAdd vals s k v
      let s ← addInputValue W s k x
      addSeveral W vals ks s

/-- `add_block_input_values`: workflow/core.py 1878-1882. -/
def addBlockValues (W : Workflow α) (i : Nat) (vals : Nat → Option α) (s : St α) : Except PyErr (St α) := do
  let ks ← blockInputIndices W i
  addSeveral W vals ks s

/-- One call of the user: `add_input_value`, `add_several_input_values` or `add_block_input_values`: workflow/core.py
1858-1882. -/
inductive Give (α : Type) where
  | one (k : Nat) (x : α)
  | several (ks : List Nat) (vals : Nat → Option α)
  | block (i : Nat) (vals : Nat → Option α)

/-- The effect of one call: workflow/core.py 1858-1882. -/
def giveStep (W : Workflow α) (s : St α) : Give α → Except PyErr (St α)
  | .one k x => addInputValue W s k x
  | .several ks vals => addSeveral W vals ks s
  | .block i vals => addBlockValues W i vals s

/-- A history of calls: workflow/core.py 1858-1882. -/
def giveAll (W : Workflow α) : List (Give α) → St α → Except PyErr (St α)
  | [], s => .ok s
  | g :: gs, s => do
    let s ← giveStep W s g
    giveAll W gs s

end DC.Wkf
