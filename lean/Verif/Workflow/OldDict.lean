import Verif.Workflow.Persist
/-
Documents of workflows written by former versions: values imposed to variables, and entries which may be missing.
-/
namespace DC.Wkf

variable {κ τ α δ J : Type} [Inhabited τ]

/-- A document of a workflow, of the present or of a former version: workflow/core.py 777-809, 2302-2321.  `none` is a missing entry.
The entry `imposed_variable_values` is the list of its keys, read by `ast.literal_eval` as addresses, with their values. -/
structure OldD (κ δ J : Type) where
  name : String
  blocks : List (BlockD κ J)
  pipes : List (Addr × Addr)
  output : Option Addr
  free : Option (List (VarD J))
  steps : Option (List (StepDict δ))
  description : Option String
  documentation : Option String
  imposed : Option (List (Addr × J))

/-- The loop on the imposed values: workflow/core.py 788-794.  The value is set as default value, then the variable is locked. -/
def imposeAll (w : World κ τ α δ J) (W : Wf κ δ) : Store τ α → List (Addr × J) → Except PyErr (Store τ α)
  | s, [] => .ok s
  | s, (a, j) :: rest => do
    let v ← variableFromIndex (skel w s W) a
    let x ← Var.lock { look s v with default := some (w.des j) } none
    imposeAll w W (s.set v x) rest

/-- The steps, or none: workflow/core.py 797-806. -/
def stepsOfDict (w : World κ τ α δ J) (s : Store τ α) (W : Wf κ δ) : Option (List (StepDict δ)) → Except PyErr (List (StepO δ))
  | some l => l.mapM (stepOfDict w s W)
  | none => .ok []

/-- `Workflow.dict_to_object` on any document: workflow/core.py 777-809, with `initialize_workflow` 2302-2321. -/
def ofOld (w : World κ τ α δ J) (s : Store τ α) (d : OldD κ δ J) : Except PyErr (Wf κ δ × Store τ α) := do
  let (blocks, s1) ← blocksOfDict w s d.blocks
  let free := d.free.getD []
  let s2 := s1 ++ free.map (varOfDict w)
  let (pipes, s3) ← pipesOfDict blocks (List.range' s1.length free.length) s2 d.pipes
  let output ← outputOfDict blocks d.output
  let init ← mkWf w s3 blocks pipes output [] "" "" ""
  let s4 ← imposeAll w init s3 (d.imposed.getD [])
  let steps ← stepsOfDict w s4 init d.steps
  let W ← mkWf w s4 init.blocks init.pipes init.output steps (d.description.getD "") (d.documentation.getD "") d.name
  .ok (W, s4)

end DC.Wkf
