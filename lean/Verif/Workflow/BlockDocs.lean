import Verif.Schemas.Docstring
/-
The descriptions of the inputs of workflows.  Source: dessia_common/workflow/core.py 212-224, 702-704, 710-726, 1048-1076;
dessia_common/workflow/blocks.py 122-129, 188-195, 270-277, 426-434, 509-515; dessia_common/schemas/core.py 33-35.
-/
namespace DC.Wkf
open Sch

/-- A variable: workflow/core.py 40-60.  Two variables are equal when they are the same object (`_eq_is_data_eq = False`): `id` tells which. -/
structure DocVar where
  id : Nat
  name : List Char
deriving DecidableEq

/-- A block, with what its documentation depends on.  Simplification: the blocks without a documentation of their own are one kind.
Used for workflow/core.py 212-214. -/
inductive DocBlock where
  /-- Any block which has no `_docstring` of its own: workflow/core.py 212-214. -/
  | plain (inputs : List DocVar)
  /-- `InstantiateModel`, `ClassMethod` and `ModelMethod`: blocks.py 80-129, 139-195, 209-277.  `hints` are the annotations given by
  `get_type_hints`, or its exception; `doc` is the docstring of the class or of the method. -/
  | call (hints : Except PyErr (List Char → Except PyErr (List Char))) (doc : Option (List Char)) (inputs : List DocVar)
  /-- `WorkflowBlock`: blocks.py 372-434, with the blocks and the inputs of its workflow. -/
  | sub (inputs : List DocVar) (blocks : List DocBlock) (winputs : List DocVar)
  /-- `ForEach`: blocks.py 450-515, with the blocks and the inputs of the workflow of its block. -/
  | forEach (inputs : List DocVar) (blocks : List DocBlock) (winputs : List DocVar)

/-- `EMPTY_PARSED_ATTRIBUTE`: schemas/core.py 33. -/
def noDoc : ParsedAttr := ⟨[], []⟩

/-- `FAILED_ATTRIBUTE_PARSING`: schemas/core.py 35. -/
def failedDoc : ParsedAttr := ⟨"Attribute documentation parsing failed".toList, []⟩

/-- `block.inputs`: workflow/core.py 183. -/
def DocBlock.inputs : DocBlock → List DocVar
  | .plain i => i
  | .call _ _ i => i
  | .sub i _ _ => i
  | .forEach i _ _ => i

/-- The documentation of the input in what was read of the docstring: blocks.py 128-129, 194-195, 276-277. -/
def inputAttr (p : ParsedDoc) (v : DocVar) : ParsedAttr :=
  match p.attributes.lookup v.name with
  | some a => a
  | none => noDoc

/-- The dictionary of the documentations of inputs, from what was read of the docstring: blocks.py 128-129, 194-195, 276-277. -/
def callDocs (p : ParsedDoc) : List DocVar → List (Nat × ParsedAttr)
  | [] => []
  | v :: vs => (v.id, inputAttr p v) :: callDocs p vs

/-- `{i: EMPTY_PARSED_ATTRIBUTE for i in self.inputs}`: workflow/core.py 214. -/
def emptyDocs : List DocVar → List (Nat × ParsedAttr)
  | [] => []
  | v :: vs => (v.id, noDoc) :: emptyDocs vs

/-- The inner loop of `WorkflowBlock._docstring`: blocks.py 431-433. -/
def copyDocs (d : List (Nat × ParsedAttr)) : List DocVar → List (Nat × ParsedAttr) → List (Nat × ParsedAttr)
  | [], r => r
  | w :: ws, r =>
    match d.lookup w.id with
    | some a => copyDocs d ws (Dict.set r w.id a)
    | none => copyDocs d ws r

/-- The outer loop of `WorkflowBlock._docstring`: blocks.py 430-433. -/
def gatherDocs (ws : List DocVar) : List (List (Nat × ParsedAttr)) → List (Nat × ParsedAttr) → List (Nat × ParsedAttr)
  | [], r => r
  | d :: ds, r => gatherDocs ws ds (copyDocs d ws r)

/-- The loop of `ForEach._docstring`: blocks.py 513-514. -/
def zipDocs (d : List (Nat × ParsedAttr)) : List DocVar → List DocVar → List (Nat × ParsedAttr) → Except PyErr (List (Nat × ParsedAttr))
  | v :: vs, w :: ws, r =>
    match d.lookup w.id with
    | some a => zipDocs d vs ws (Dict.set r v.id a)
    | none => .error .keyError
  | _, _, r => .ok r

mutual
/-- `_docstring`: workflow/core.py 212-214; blocks.py 122-129, 188-195, 270-277, 426-434, 509-515. -/
def blockDoc : DocBlock → Except PyErr (List (Nat × ParsedAttr))
  | .plain i => .ok (emptyDocs i)
  | .call (.error e) _ _ => .error e
  | .call (.ok ann) doc i =>
    match parseDocstring ann doc with
    | .error e => .error e
    | .ok p => .ok (callDocs p i)
  | .sub _ bs ws =>
    match blockDocs bs with
    | .error e => .error e
    | .ok ds => .ok (gatherDocs ws ds [])
  | .forEach i bs ws =>
    match blockDocs bs with
    | .error e => .error e
    | .ok ds => zipDocs (gatherDocs ws ds []) i ws []

/-- `Workflow._docstring`: workflow/core.py 702-704. -/
def blockDocs : List DocBlock → Except PyErr (List (List (Nat × ParsedAttr)))
  | [] => .ok []
  | b :: bs =>
    match blockDoc b with
    | .error e => .error e
    | .ok d =>
      match blockDocs bs with
      | .error e => .error e
      | .ok ds => .ok (d :: ds)
end

/-- `parse_input_doc`: workflow/core.py 216-224. -/
def parseInputDoc (b : DocBlock) (id : Nat) : ParsedAttr :=
  match blockDoc b with
  | .error _ => failedDoc
  | .ok d =>
    match d.lookup id with
    | some a => a
    | none => noDoc

/-- `block_from_variable` of an input: workflow/core.py 1048-1076.  Simplification: the variable is an input of a block. -/
def blockOf (id : Nat) : List DocBlock → Option DocBlock
  | [] => none
  | b :: bs => if id ∈ b.inputs.map DocVar.id then some b else blockOf id bs

/-- The description in `input_schema`: workflow/core.py 710-726.  `free` are the variables of no block. -/
def inputDescription (blocks : List DocBlock) (free : List Nat) (id : Nat) : Except PyErr (List Char) :=
  if id ∈ free then .ok noDoc.desc
  else
    match blockOf id blocks with
    | some b => .ok (parseInputDoc b id).desc
    | none => .error .workflowError

end DC.Wkf
