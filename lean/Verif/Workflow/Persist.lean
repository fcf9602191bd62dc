import Verif.Workflow.Model
import Verif.Util.PyDict
/-
Serialization, deserialization, copy, hash and equality of workflows.
Source: dessia_common/workflow/core.py 46-342, 364-613, 757-809, 845-851, 947-949, 1048-1101, 2302-2353, and the
`dict_to_object`, `equivalent` and `equivalent_hash` methods of the blocks in dessia_common/workflow/blocks.py.

Variables are objects compared by identity: a variable is an index in a store, the list of all the variables created so
far, and a creation adds one at the end of the store.  `κ` is what a block is built from (its class and the arguments of
its constructor), `τ` the annotations, `α` the values, `δ` the display settings and `J` the serialized values.
Simplifications: the arguments of the constructors of the blocks and the display settings are taken to be serialized,
read back and copied without change; `memorize` of the pipes, the branches of display blocks, `package_mix` and the
deprecated keys are left out; a block object listed twice is not represented.
-/
set_option linter.unusedSectionVars false
namespace DC.Wkf

/-- What a constructor of block gives to the constructor of a variable: workflow/core.py 51-60. -/
structure Proto (τ α : Type) where
  name : String
  type : τ
  label : String := ""
  position : Int × Int := (0, 0)
  default : Option α := none
  deriving Inhabited

/-- A variable: workflow/core.py 46-60 (`none` is UNDEFINED).  Positions are integers. -/
structure Var (τ α : Type) where
  name : String
  type : τ
  label : String
  position : Int × Int
  default : Option α
  lockFlag : Bool
  deriving Inhabited

/-- The variables created so far.  Used for workflow/core.py 364-383, 860-874. -/
abbrev Store (τ α : Type) := List (Var τ α)

/-- `Variable.__init__`: workflow/core.py 51-60 (the type given). -/
def Proto.var {τ α : Type} (p : Proto τ α) : Var τ α := ⟨p.name, p.type, p.label, p.position, p.default, false⟩

/-- What the model takes from the classes of blocks and from the serialization of values.  Used for blocks.py 99-103, 163-169, 310-312. -/
structure World (κ τ α δ J : Type) where
  /-- the input variables built by the constructor of a block (`__init__` in blocks.py) -/
  ins : κ → List (Proto τ α)
  /-- the output variables built by the constructor of a block (`__init__` in blocks.py) -/
  outs : κ → List (Proto τ α)
  /-- `__class__.__name__` -/
  cls : κ → String
  /-- what `equivalent` compares besides the inputs and the name of the class (blocks.py 99-103, 163-169, 310-312, …) -/
  same : κ → κ → Bool
  /-- the attributes of the other block which `equivalent` reads before comparing the classes: an AttributeError when it has
  none (blocks.py 101-102, 165-168, 241-244, 486-487, 796, 861) -/
  reads : κ → κ → Except PyErr Unit
  /-- `equivalent_hash`, given the number of locked inputs (core.py 194-200; blocks.py 95-97, 158-161, …) -/
  hash : κ → Nat → Int
  /-- `evaluate` -/
  eval : κ → List α → Except PyErr (List α)
  /-- `serialize` and `deserialize` of default values -/
  ser : α → J
  des : J → α
  /-- `serialize_annotation` -/
  serT : τ → String
  /-- a string in the place of an annotation -/
  ofString : String → τ
  /-- `hash` of labels -/
  hashS : String → Int
  /-- `hash` of display settings, and of `None` -/
  hashD : Option δ → Int
  /-- `hash` of addresses, and of `None` -/
  hashA : Option Addr → Int

/-- A block object: workflow/core.py 176-186. -/
structure BlockO (κ : Type) where
  kind : κ
  name : String
  position : Int × Int
  inputs : List Nat
  outputs : List Nat

/-- A step: workflow/core.py 282-302. -/
structure StepO (δ : Type) where
  label : String
  inputs : List Nat
  groupId : String
  groupInputs : List Nat
  display : Option δ
  documentation : String
  displayIdx : Option Int
  id : String

/-- A workflow object: workflow/core.py 364-409.  A pipe is the pair of its variables. -/
structure Wf (κ δ : Type) where
  blocks : List (BlockO κ)
  pipes : List (Nat × Nat)
  output : Option Nat
  steps : List (StepO δ)
  detached : List Nat
  description : String
  documentation : String
  name : String

variable {κ τ α δ J : Type} [Inhabited τ]

/-- The variable an identity stands for (an identity always designates an existing variable).  Used for workflow/core.py 364-383, 860-874. -/
def look (s : Store τ α) (v : Nat) : Var τ α := s.getD v default

/-- The graph of a workflow object, in the terms of `Workflow/Model.lean`: workflow/core.py 364-383, 860-874. -/
def skel (w : World κ τ α δ J) (s : Store τ α) (W : Wf κ δ) : Workflow α where
  blocks := W.blocks.map fun b => ⟨b.inputs, b.outputs, w.eval b.kind⟩
  pipes := W.pipes.map fun p => ⟨p.1, p.2, false⟩
  output := W.output
  default v := (look s v).default
  lockFlag v := (look s v).lockFlag

/-- `Variable.locked`: workflow/core.py 62-69. -/
def Var.locked (x : Var τ α) : Except PyErr Bool :=
  if x.lockFlag then (if x.default.isSome then .ok true else .error .valueError) else .ok false

/-- `Variable.lock`: workflow/core.py 76-83. -/
def Var.lock (x : Var τ α) (value : Option α) : Except PyErr (Var τ α) :=
  match value with
  | some v => .ok { x with default := some v, lockFlag := true }
  | none => if x.default.isSome then .ok { x with lockFlag := true } else .error .valueError

/-- The constructor of workflows, for no detached variable: workflow/core.py 364-409, 501-521.  The output must be an
output of a block; the variable of the name of the result is added to the detached variables if no free variable has its
name.  The first variable of the store is `NAME_VARIABLE` (170-173), which belongs to the module. -/
def mkWf (w : World κ τ α δ J) (s : Store τ α) (blocks : List (BlockO κ)) (pipes : List (Nat × Nat))
    (output : Option Nat) (steps : List (StepO δ)) (description documentation name : String) : Except PyErr (Wf κ δ) :=
  let W : Wf κ δ := ⟨blocks, pipes, output, steps, [], description, documentation, name⟩
  let named := (nbvs (skel w s W)).any fun v => (look s v).name == "_result_name_"
  let W := { W with detached := if named then [] else [0] }
  match output with
  | none => .ok W
  | some o => if blocks.any (fun b => b.outputs.contains o) then .ok W else .error .workflowError

/-! ### Serialization -/

/-- A serialized variable: workflow/core.py 108-117. -/
structure VarD (J : Type) where
  name : String
  type : String
  label : String
  position : Int × Int
  locked : Bool
  default : Option J

/-- A serialized block: workflow/core.py 188-191. -/
structure BlockD (κ J : Type) where
  kind : κ
  name : String
  position : Int × Int
  ins : List (VarD J)
  outs : List (VarD J)

/-- A serialized step: workflow/core.py 316-321, 761-766. -/
structure StepDict (δ : Type) where
  label : String
  display : Option δ
  inputs : List Addr
  groupInputs : List Addr
  groupId : String
  id : String
  documentation : String
  displayIdx : Option Int

/-- A serialized workflow: workflow/core.py 757-775. -/
structure WfD (κ δ J : Type) where
  name : String
  blocks : List (BlockD κ J)
  pipes : List (Addr × Addr)
  output : Option Addr
  free : List (VarD J)
  steps : List (StepDict δ)
  description : String
  documentation : String

/-- `Variable.to_dict`: workflow/core.py 108-117. -/
def varToDict (w : World κ τ α δ J) (x : Var τ α) : Except PyErr (VarD J) := do
  let l ← x.locked
  .ok ⟨x.name, w.serT x.type, x.label, x.position, l, x.default.map w.ser⟩

/-- `Block.to_dict`: workflow/core.py 188-191. -/
def blockToDict (w : World κ τ α δ J) (s : Store τ α) (b : BlockO κ) : Except PyErr (BlockD κ J) := do
  let ins ← b.inputs.mapM fun v => varToDict w (look s v)
  let outs ← b.outputs.mapM fun v => varToDict w (look s v)
  .ok ⟨b.kind, b.name, b.position, ins, outs⟩

/-- A step in `Workflow.to_dict`: workflow/core.py 761-766, with `Step.to_dict` 316-321 (the dicts of the inputs are
computed, then replaced by the addresses). -/
def stepToDict (w : World κ τ α δ J) (s : Store τ α) (W : Wf κ δ) (t : StepO δ) : Except PyErr (StepDict δ) := do
  let _ ← t.inputs.mapM fun v => varToDict w (look s v)
  let _ ← t.groupInputs.mapM fun v => varToDict w (look s v)
  let ins ← t.inputs.mapM (variableIndices (skel w s W))
  let grp ← t.groupInputs.mapM (variableIndices (skel w s W))
  .ok ⟨t.label, t.display, ins, grp, t.groupId, t.id, t.documentation, t.displayIdx⟩

/-- `pipe_variable_indices`: workflow/core.py 947-949. -/
def pipeToDict (w : World κ τ α δ J) (s : Store τ α) (W : Wf κ δ) (p : Nat × Nat) : Except PyErr (Addr × Addr) := do
  let a ← variableIndices (skel w s W) p.1
  let b ← variableIndices (skel w s W) p.2
  .ok (a, b)

/-- `variable_indices` of the output, or of `None`: workflow/core.py 1055-1056. -/
def outputIndices (w : World κ τ α δ J) (s : Store τ α) (W : Wf κ δ) : Except PyErr (Option Addr) :=
  match W.output with
  | none => .ok none
  | some o => (variableIndices (skel w s W) o).map some

/-- `Workflow.to_dict`: workflow/core.py 757-775. -/
def toDict (w : World κ τ α δ J) (s : Store τ α) (W : Wf κ δ) : Except PyErr (WfD κ δ J) := do
  let steps ← W.steps.mapM (stepToDict w s W)
  let blocks ← W.blocks.mapM (blockToDict w s)
  let pipes ← W.pipes.mapM (pipeToDict w s W)
  let output ← outputIndices w s W
  let free ← (nbvs (skel w s W) ++ W.detached).mapM fun v => varToDict w (look s v)
  .ok ⟨W.name, blocks, pipes, output, free, steps, W.description, W.documentation⟩

/-! ### Deserialization -/

/-- `Variable.update_from_config`: workflow/core.py 119-126. -/
def updateFromConfig (w : World κ τ α δ J) (x : Var τ α) (c : VarD J) : Except PyErr (Var τ α) :=
  let x := { x with default := c.default.map w.des, label := c.label }
  if c.locked then x.lock none else .ok x

/-- The loop on `zip(self.inputs, dict_["inputs"])` in `deserialize_variables`: workflow/core.py 246-252; the variables
without configuration are left as built. -/
def updateZip (w : World κ τ α δ J) : List (Var τ α) → List (VarD J) → Except PyErr (List (Var τ α))
  | x :: xs, c :: cs => do
    let y ← updateFromConfig w x c
    let ys ← updateZip w xs cs
    .ok (y :: ys)
  | xs, _ => .ok xs

/-- `dict_to_object` of the classes of blocks (blocks.py 106-111 and the like): call the constructor, then
`deserialize_variables` (core.py 240-252). -/
def blockOfDict (w : World κ τ α δ J) (s : Store τ α) (d : BlockD κ J) : Except PyErr (BlockO κ × Store τ α) := do
  let ins ← updateZip w ((w.ins d.kind).map Proto.var) d.ins
  let outs ← updateZip w ((w.outs d.kind).map Proto.var) d.outs
  .ok (⟨d.kind, d.name, d.position, List.range' s.length ins.length,
    List.range' (s.length + ins.length) outs.length⟩, s ++ ins ++ outs)

/-- The blocks of `initialize_workflow`: workflow/core.py 2304-2305. -/
def blocksOfDict (w : World κ τ α δ J) : Store τ α → List (BlockD κ J) → Except PyErr (List (BlockO κ) × Store τ α)
  | s, [] => .ok ([], s)
  | s, d :: ds => do
    let (b, s) ← blockOfDict w s d
    let (bs, s) ← blocksOfDict w s ds
    .ok (b :: bs, s)

/-- The generic `dict_to_object` of a free variable: workflow/core.py 2307-2308.  The annotation is read back as a
string (see the comment of 2342-2349) and the lock, which is no argument of the constructor, is not read. -/
def varOfDict (w : World κ τ α δ J) (d : VarD J) : Var τ α :=
  ⟨d.name, w.ofString d.type, d.label, d.position, d.default.map w.des, false⟩

/-- The end of a pipe in `deserialize_pipes`: workflow/core.py 2328-2340; the side of an address is ignored, a source is
read in the outputs and a target in the inputs. -/
def endVar (blocks : List (BlockO κ)) (free : List Nat) (source : Bool) : Addr → Except PyErr Nat
  | .nbv i => match free[i]? with
    | some v => .ok v
    | none => .error .indexError
  | .port b _ i => match blocks[b]? with
    | none => .error .indexError
    | some blk => match (if source then blk.outputs else blk.inputs)[i]? with
      | some v => .ok v
      | none => .error .indexError

/-- `variable1.type_ = variable2.type_` when the source is a free variable: workflow/core.py 2342-2351. -/
def resetType (s : Store τ α) (v u : Nat) : Addr → Store τ α
  | .nbv _ => s.modify v fun x => { x with type := (look s u).type }
  | .port _ _ _ => s

/-- `deserialize_pipes`: workflow/core.py 2324-2353. -/
def pipesOfDict (blocks : List (BlockO κ)) (free : List Nat) :
    Store τ α → List (Addr × Addr) → Except PyErr (List (Nat × Nat) × Store τ α)
  | s, [] => .ok ([], s)
  | s, (a, b) :: rest => do
    let v ← endVar blocks free true a
    let u ← endVar blocks free false b
    let (ps, s) ← pipesOfDict blocks free (resetType s v u a) rest
    .ok ((v, u) :: ps, s)

/-- The output in `initialize_workflow`: workflow/core.py 2316-2319 (`dict_['output'][0]` of an integer raises). -/
def outputOfDict (blocks : List (BlockO κ)) : Option Addr → Except PyErr (Option Nat)
  | none => .ok none
  | some (.nbv _) => .error .typeError
  | some (.port b _ i) => match blocks[b]? with
    | none => .error .indexError
    | some blk => match blk.outputs[i]? with
      | some v => .ok (some v)
      | none => .error .indexError

/-- A step in `Workflow.dict_to_object`: workflow/core.py 799-802, with `Step.dict_to_object` 323-333: the index of the
displayed variable is only read with a display setting. -/
def stepOfDict (w : World κ τ α δ J) (s : Store τ α) (W : Wf κ δ) (d : StepDict δ) : Except PyErr (StepO δ) := do
  let ins ← d.inputs.mapM (variableFromIndex (skel w s W))
  let grp ← d.groupInputs.mapM (variableFromIndex (skel w s W))
  .ok ⟨d.label, ins, d.groupId, grp, d.display, d.documentation, if d.display.isSome then d.displayIdx else none, d.id⟩

/-- `Workflow.dict_to_object`: workflow/core.py 777-809, with `initialize_workflow` 2302-2321.  The detached variables of
the intermediate workflow, which have no effect on the result, are left out. -/
def ofDict (w : World κ τ α δ J) (s : Store τ α) (d : WfD κ δ J) : Except PyErr (Wf κ δ × Store τ α) := do
  let (blocks, s1) ← blocksOfDict w s d.blocks
  let s2 := s1 ++ d.free.map (varOfDict w)
  let (pipes, s3) ← pipesOfDict blocks (List.range' s1.length d.free.length) s2 d.pipes
  let output ← outputOfDict blocks d.output
  let init ← mkWf w s3 blocks pipes output [] "" "" ""
  let steps ← d.steps.mapM (stepOfDict w s3 init)
  let W ← mkWf w s3 init.blocks init.pipes init.output steps d.description d.documentation d.name
  .ok (W, s3)

/-! ### Copy -/

/-- The copy of a block by its constructor: core.py 347-363 (`deepcopy_value` of workflow/core.py 536). -/
def copyBlock (w : World κ τ α δ J) (s : Store τ α) (b : BlockO κ) : BlockO κ × Store τ α :=
  let ins := (w.ins b.kind).map Proto.var
  let outs := (w.outs b.kind).map Proto.var
  (⟨b.kind, b.name, b.position, List.range' s.length ins.length, List.range' (s.length + ins.length) outs.length⟩,
    s ++ ins ++ outs)

/-- The blocks of `__deepcopy__`: workflow/core.py 536. -/
def copyBlocks (w : World κ τ α δ J) : Store τ α → List (BlockO κ) → List (BlockO κ) × Store τ α
  | s, [] => ([], s)
  | s, b :: bs =>
    let r := copyBlock w s b
    let q := copyBlocks w r.2 bs
    (r.1 :: q.1, q.2)

/-- The output in `__deepcopy__`: workflow/core.py 537-542. -/
def copyOutput (w : World κ τ α δ J) (s : Store τ α) (W : Wf κ δ) (blocks : List (BlockO κ)) :
    Except PyErr (Option Nat) := do
  let a ← outputIndices w s W
  outputOfDict blocks a

/-- `Variable.copy`: workflow/core.py 140-155: type, default value, name and lock. -/
def copyVar (x : Var τ α) : Except PyErr (Var τ α) := do
  let l ← x.locked
  let y : Var τ α := ⟨x.name, x.type, "", (0, 0), x.default, false⟩
  if l then y.lock none else .ok y

/-- One pipe in `copy_pipes`: workflow/core.py 578-613.  `s0` and `W` are the store and the workflow to copy, `C` the
copied workflow without pipes. -/
def copyPipe (w : World κ τ α δ J) (s0 : Store τ α) (W C : Wf κ δ) (s : Store τ α) (memo : List (Nat × Nat))
    (p : Nat × Nat) : Except PyErr ((Nat × Nat) × List (Nat × Nat) × Store τ α) :=
  match variableIndices (skel w s0 W) p.1 with
  | .error e => .error e
  | .ok (.nbv _) =>
    let i := (allVariables (skel w s0 W)).idxOf p.1
    match memo.lookup i with
    | some u => do
      let b ← variableIndices (skel w s0 W) p.2
      let t ← variableFromIndex (skel w s C) b
      .ok ((u, t), memo, s)
    | none => do
      let x ← copyVar (look s0 p.1)
      let b ← variableIndices (skel w s0 W) p.2
      let t ← variableFromIndex (skel w s C) b
      .ok ((s.length, t), Dict.set memo i s.length, s ++ [x])
  | .ok (.port k side j) => do
    let u ← variableFromIndex (skel w s C) (.port k side j)
    let b ← variableIndices (skel w s0 W) p.2
    let t ← variableFromIndex (skel w s C) b
    .ok ((u, t), memo, s)

/-- `copy_pipes`: workflow/core.py 607-613. -/
def copyPipes (w : World κ τ α δ J) (s0 : Store τ α) (W C : Wf κ δ) :
    Store τ α → List (Nat × Nat) → List (Nat × Nat) → Except PyErr (List (Nat × Nat) × Store τ α)
  | s, _, [] => .ok ([], s)
  | s, memo, p :: ps => do
    let (q, memo, s) ← copyPipe w s0 W C s memo p
    let (qs, s) ← copyPipes w s0 W C s memo ps
    .ok (q :: qs, s)

/-- `copy_step`: workflow/core.py 563-576. -/
def copyStep (w : World κ τ α δ J) (s0 : Store τ α) (W : Wf κ δ) (s : Store τ α) (C : Wf κ δ) (t : StepO δ) :
    Except PyErr (StepO δ) := do
  let ins ← t.inputs.mapM fun v => do
    let a ← variableIndices (skel w s0 W) v
    variableFromIndex (skel w s C) a
  .ok ⟨t.label, ins, t.groupId, ((t.inputs.zip ins).filter fun vu => t.groupInputs.contains vu.1).map (·.2),
    t.display, t.documentation, t.displayIdx, t.id⟩

/-- The loop which locks the inputs of the copy: workflow/core.py 557-560. -/
def copyLocks (s0 : Store τ α) : Store τ α → List Nat → List Nat → Except PyErr (Store τ α)
  | s, [], _ => .ok s
  | s, v :: vs, us => do
    let l ← (look s0 v).locked
    match l, us with
    | false, us => copyLocks s0 s vs us.tail
    | true, [] => .error .indexError
    | true, u :: us => do
      let y ← (look s u).lock (look s0 v).default
      copyLocks s0 (s.set u y) vs us

/-- `Workflow.__deepcopy__`: workflow/core.py 531-561. -/
def deepCopy (w : World κ τ α δ J) (s : Store τ α) (W : Wf κ δ) : Except PyErr (Wf κ δ × Store τ α) := do
  let (blocks, s1) := copyBlocks w s W.blocks
  let output ← copyOutput w s W blocks
  let C ← mkWf w s1 blocks [] output [] "" "" W.name
  let (pipes, s2) ← copyPipes w s W C s1 [] W.pipes
  let P ← mkWf w s2 blocks pipes output [] "" "" W.name
  let steps ← W.steps.mapM (copyStep w s W s2 P)
  let R ← mkWf w s2 blocks pipes output steps "" "" W.name
  let s3 ← copyLocks s s2 (inputs (skel w s W)) (inputs (skel w s2 R))
  .ok (R, s3)

/-! ### Equality -/

/-- `Variable.equivalent`: workflow/core.py 102-106 (the properties `locked` are read first and may raise). -/
def varEquiv [DecidableEq τ] (x y : Var τ α) : Except PyErr Bool := do
  let l ← x.locked
  let m ← y.locked
  .ok (x.name == y.name && x.type == y.type && l == m)

/-- The loop on a `zip` of variables, which stops at the first difference: workflow/core.py 208-210, 310-311. -/
def varsEquiv [DecidableEq τ] (s s' : Store τ α) : List Nat → List Nat → Except PyErr Bool
  | v :: vs, u :: us => do
    let r ← varEquiv (look s v) (look s' u)
    if r then varsEquiv s s' vs us else .ok false
  | _, _ => .ok true

/-- `equivalent` of blocks: workflow/core.py 202-211 and its overloads in blocks.py. -/
def blockEquiv [DecidableEq τ] (w : World κ τ α δ J) (s s' : Store τ α) (b c : BlockO κ) : Except PyErr Bool := do
  w.reads b.kind c.kind
  let r ← varsEquiv s s' b.inputs c.inputs
  .ok (r && w.cls b.kind == w.cls c.kind && w.same b.kind c.kind)

/-- The loop on `zip(self.blocks, other_object.blocks)`: workflow/core.py 487-489. -/
def blocksEquiv [DecidableEq τ] (w : World κ τ α δ J) (s s' : Store τ α) :
    List (BlockO κ) → List (BlockO κ) → Except PyErr Bool
  | b :: bs, c :: cs => do
    let r ← blockEquiv w s s' b c
    if r then blocksEquiv w s s' bs cs else .ok false
  | _, _ => .ok true

/-- `_equivalent_pipes`: workflow/core.py 517-529 (the variables of a pipe are always in `variables`). -/
def pipesEquiv (A B : List Nat) (ps qs : List (Nat × Nat)) : Bool :=
  let n := min ps.length qs.length
  let l := (ps.take n).map fun p => (A.idxOf p.1, A.idxOf p.2)
  let r := (qs.take n).map fun p => (B.idxOf p.1, B.idxOf p.2)
  l.all (r.contains ·) && r.all (l.contains ·)

/-- `Step.__eq__`: workflow/core.py 308-315 (the lengths of the documentations are compared). -/
def stepEquiv [DecidableEq τ] [DecidableEq δ] (s s' : Store τ α) (t u : StepO δ) : Except PyErr Bool := do
  let a ← varsEquiv s s' t.inputs u.inputs
  let b ← varsEquiv s s' t.groupInputs u.groupInputs
  .ok (t.label == u.label && a && b && t.display == u.display &&
    t.documentation.length == u.documentation.length && t.displayIdx == u.displayIdx)

/-- The loop on `zip(self.steps, other_object.steps)`: workflow/core.py 494. -/
def stepsEquiv [DecidableEq τ] [DecidableEq δ] (s s' : Store τ α) : List (StepO δ) → List (StepO δ) → Except PyErr Bool
  | t :: ts, u :: us => do
    let r ← stepEquiv s s' t u
    if r then stepsEquiv s s' ts us else .ok false
  | _, _ => .ok true

/-- The number of locked variables of a list: workflow/core.py 200, 421. -/
def lockedCount (s : Store τ α) (vs : List Nat) : Except PyErr Nat := do
  let l ← vs.mapM fun v => (look s v).locked
  .ok (l.count true)

/-- `Step.__hash__`: workflow/core.py 304-306; adding `None` is a TypeError. -/
def stepHash (w : World κ τ α δ J) (t : StepO δ) : Except PyErr Int :=
  match t.displayIdx with
  | none => .error .typeError
  | some i => .ok (w.hashS t.label + 43 * t.inputs.length + 19 * t.groupInputs.length + w.hashD t.display
      + t.documentation.length + i)

/-- `equivalent_hash` of a block: workflow/core.py 194-200 and its overloads in blocks.py (which do not read the locks: the
error of a lock without value, which an input of the workflow raises as well, is raised here for all classes). -/
def blockHash (w : World κ τ α δ J) (s : Store τ α) (b : BlockO κ) : Except PyErr Int := do
  let n ← lockedCount s b.inputs
  .ok (w.hash b.kind n)

/-- `Workflow._data_hash`: workflow/core.py 475-480. -/
def dataHash (w : World κ τ α δ J) (s : Store τ α) (W : Wf κ δ) : Except PyErr Int := do
  let a ← outputIndices w s W
  let n ← lockedCount s (inputs (skel w s W))
  let bs ← W.blocks.mapM (blockHash w s)
  let ts ← W.steps.mapM (stepHash w)
  .ok ((W.blocks.length + 11 * W.pipes.length + 23 * n + w.hashA a + bs.sum % 1000000 + ts.sum) % 1000000000)

/-- `==` of two workflows: core.py 116-128 and workflow/core.py 482-499. -/
def dataEq [DecidableEq τ] [DecidableEq δ] (w : World κ τ α δ J) (s s' : Store τ α) (W W' : Wf κ δ) :
    Except PyErr Bool := do
  let h ← dataHash w s W
  let h' ← dataHash w s' W'
  if h != h' then .ok false
  else do
    let a ← varsEquiv s s' (inputs (skel w s W)) (inputs (skel w s' W'))
    if !a then .ok false
    else do
      let b ← blocksEquiv w s s' W.blocks W'.blocks
      if !b then .ok false
      else if !pipesEquiv (allVariables (skel w s W)) (allVariables (skel w s' W')) W.pipes W'.pipes then .ok false
      else stepsEquiv s s' W.steps W'.steps

end DC.Wkf
