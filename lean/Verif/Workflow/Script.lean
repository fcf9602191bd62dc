import Verif.Workflow.Persist
import Verif.Util.PyList
/-
The scripts of workflows (`to_script`), and what they do when they are run.
Sources: dessia_common/workflow/core.py 140-167, 232-234, 1301-1373; dessia_common/workflow/utils.py 15-79; the `_to_script` methods and
the constructors of dessia_common/workflow/blocks.py 384-396, 436-476, 517-526.

A script is a list of statements, and a Python process runs it: a statement is here the tree of what is written, not its text.  Names
(with their prefixes), class names and string literals are texts.  Variables are indices in a store, as in Workflow/Persist.lean.
Simplifications: comments and blank lines are left out; positions are written and read without change.
-/
set_option linter.unusedSectionVars false
namespace DC.Scr
open DC.Wkf

/-- What a block is built from: a block without other blocks in it, a `WorkflowBlock` on a workflow (blocks.py 384-396), a `ForEach` on a
`WorkflowBlock` and the index of its iterated input (blocks.py 460-476). -/
inductive Kd (β δ : Type) where
  | leaf (b : β)
  | sub (W : Wf (Kd β δ) δ)
  | each (b : BlockO (Kd β δ)) (i : Int)

/-- A block.  Used for workflow/core.py 181-186. -/
abbrev Blk (β δ : Type) := BlockO (Kd β δ)

/-- A workflow.  Used for workflow/core.py 364-383, 860-874. -/
abbrev Flow (β δ : Type) := Wf (Kd β δ) δ

/-- A class: its module and its name.  `full_classname` is both, separated by a dot (serialization.py 36-44). -/
abbrev Cls := String × String

/-- The quotes of a literal: `"…"`, `'…'`, `"""…"""`.  Used for blocks.py 327. -/
inductive Quote where
  | double
  | single
  | triple
  deriving DecidableEq, Repr

/-- What the model takes from the classes of blocks, from the annotations and from the reading of literals by Python.  Used for blocks.py 327. -/
structure Lang (β τ α π : Type) where
  /-- the input variables built by the constructor of a block without other blocks in it -/
  ins : β → List (Proto τ α)
  /-- its output variables -/
  outs : β → List (Proto τ α)
  /-- the classes named in the declaration of the block, which are those its script imports -/
  classes : β → List Cls
  /-- the other arguments, as they are written, given the number of inputs (blocks.py 327) -/
  args : β → Nat → π
  /-- the call of the constructor, given the classes its names stand for -/
  make : List Cls → π → Except PyErr β
  /-- the type of a variable made without type -/
  noType : τ
  /-- `pretty_annotation` -/
  pretty : τ → String
  /-- `get_import_names` -/
  typeImports : τ → List Cls
  /-- the annotation a text stands for, given the classes of the names in it -/
  readT : (String → Option Cls) → String → Except PyErr τ
  /-- the string that a text between quotes stands for -/
  lit : Quote → String → Except PyErr String

/-- The reference to an object in a script: a name, `name.inputs[i]` or `name.outputs[i]`.  Used for workflow/core.py 1359-1369. -/
inductive Ref where
  | name (x : String)
  | input (x : String) (i : Nat)
  | output (x : String) (i : Nat)
  deriving DecidableEq, Repr

/-- The declaration of a block: the calls written by the `_to_script` methods of blocks.py.  Used for workflow/utils.py 51-66. -/
inductive Decl (π : Type) where
  | leaf (classes : List String) (args : π) (name : String) (position : Int × Int)
  | sub (workflow : String) (name : String) (position : Int × Int)
  | each (block : String) (i : Int) (name : String) (position : Int × Int)

/-- A statement of a script.  Used for workflow/core.py 1334. -/
inductive Stmt (π : Type) where
  /-- `documentation = """text"""`: workflow/core.py 1334 -/
  | setDoc (text : String)
  /-- `x = declaration`: workflow/utils.py 62, blocks.py 521 -/
  | setBlock (x : String) (d : Decl π)
  /-- `x.inputs[i].lock()`: workflow/utils.py 65 -/
  | lock (x : String) (i : Nat)
  /-- `x = [names]` for blocks: workflow/utils.py 67 -/
  | setBlocks (x : String) (names : List String)
  /-- `x = Variable(name='…', label='…', position=…, type_=…)`: workflow/utils.py 77, workflow/core.py 156-167 -/
  | setVar (x name label : String) (position : Int × Int) (type : String)
  /-- `x = Pipe(a, b)`: workflow/core.py 1370 -/
  | setPipe (x : String) (a b : Ref)
  /-- `x = [names]` for pipes: workflow/core.py 1372 -/
  | setPipes (x : String) (names : List String)
  /-- `x = Workflow(blocks, pipes, output=…, documentation=documentation, name="…")`: workflow/core.py 1328-1331 -/
  | setWf (x blocks pipes : String) (output : Ref) (name : String)

variable {β τ α δ π : Type} [Inhabited τ]

/-! ### Constructors -/

/-- The graph of a workflow, without what blocks compute: workflow/core.py 364-383, 860-874. -/
def graph (s : Store τ α) (W : Flow β δ) : Workflow α where
  blocks := W.blocks.map fun b => ⟨b.inputs, b.outputs, fun _ => .error .notImplemented⟩
  pipes := W.pipes.map fun p => ⟨p.1, p.2, false⟩
  output := W.output
  default v := (look s v).default
  lockFlag v := (look s v).lockFlag

/-- A copy with a new name: blocks.py 390-392, 472-474. -/
def copyAs (f : String → String) (x : Var τ α) : Except PyErr (Var τ α) := do
  let y ← copyVar x
  .ok { y with name := f y.name }

/-- The inputs of a `ForEach`: blocks.py 466-474. -/
def eachInputs (L : Lang β τ α π) (s : Store τ α) (i : Int) : Nat → List Nat → Except PyErr (List (Var τ α))
  | _, [] => .ok []
  | k, v :: vs => do
    let x ← if (k : Int) = i then .ok ⟨"Iterable input: " ++ (look s v).name, L.noType, "", (0, 0), none, false⟩
      else copyAs ("Binding: " ++ ·) (look s v)
    let xs ← eachInputs L s i (k + 1) vs
    .ok (x :: xs)

/-- The inputs and outputs which a constructor makes: blocks.py 384-396, 460-479 and the other constructors. -/
def portsOf (L : Lang β τ α π) (s : Store τ α) (name : String) : Kd β δ → Except PyErr (List (Var τ α) × List (Var τ α))
  | .leaf b => .ok ((L.ins b).map Proto.var, (L.outs b).map Proto.var)
  | .sub W => do
    let xs ← (inputs (graph s W)).mapM fun v => copyAs (fun n => name ++ " - " ++ n) (look s v)
    match W.output with
    | none => .error .attributeError
    | some o => do
      let y ← copyVar (look s o)
      .ok (xs, [y])
  | .each b i => do
    let _ ← Py.get b.inputs i
    let xs ← eachInputs L s i 0 b.inputs
    .ok (xs, [⟨"Foreach output", L.noType, "", (0, 0), none, false⟩])

/-- The call of the constructor of a block: workflow/core.py 181-186. -/
def newBlock (L : Lang β τ α π) (s : Store τ α) (k : Kd β δ) (name : String) (position : Int × Int) :
    Except PyErr (Blk β δ × Store τ α) := do
  let (xs, ys) ← portsOf L s name k
  .ok (⟨k, name, position, List.range' s.length xs.length, List.range' (s.length + xs.length) ys.length⟩, s ++ xs ++ ys)

/-- The call of the constructor of workflows: workflow/core.py 364-409, 501-521 (see `mkWf`). -/
def newFlow (s : Store τ α) (blocks : List (Blk β δ)) (pipes : List (Nat × Nat)) (o : Nat) (documentation name : String) :
    Except PyErr (Flow β δ) :=
  let W : Flow β δ := ⟨blocks, pipes, some o, [], [], "", documentation, name⟩
  let named := (nbvs (graph s W)).any fun v => (look s v).name == "_result_name_"
  if blocks.any (fun b => b.outputs.contains o) then .ok { W with detached := if named then [] else [0] } else .error .workflowError

/-! ### The script of a workflow -/

/-- `WorkflowBlock`  Used for blocks.py 131-136, 436-447, 517-526. -/
def workflowBlockC : Cls := ("dessia_common.workflow.blocks", "WorkflowBlock")
/-- `ForEach`  Used for blocks.py 131-136, 436-447, 517-526. -/
def forEachC : Cls := ("dessia_common.workflow.blocks", "ForEach")
/-- `Workflow`  Used for workflow/core.py 1301-1335. -/
def workflowC : Cls := ("dessia_common.workflow.core", "Workflow")
/-- `Pipe`  Used for workflow/core.py 1301-1335. -/
def pipeC : Cls := ("dessia_common.workflow.core", "Pipe")
/-- `Variable`  Used for workflow/core.py 1301-1335. -/
def variableC : Cls := ("dessia_common.workflow.core", "Variable")

/-- `{prefix}block_{i}`: workflow/utils.py 56. -/
def blockName (p : String) (i : Nat) : String := p ++ ("block_" ++ toString i)
/-- `{prefix}variable_{i}`: workflow/utils.py 77. -/
def varName (p : String) (i : Nat) : String := p ++ ("variable_" ++ toString i)
/-- `{prefix}pipe_{i}`: workflow/core.py 1358. -/
def pipeName (p : String) (i : Nat) : String := p ++ ("pipe_" ++ toString i)
/-- `{prefix}sub_`: blocks.py 438. -/
def subPrefix (p : String) : String := p ++ "sub_"
/-- `{prefix}blocks`: workflow/utils.py 67. -/
def blocksName (p : String) : String := p ++ "blocks"
/-- `{prefix}pipes`: workflow/core.py 1372. -/
def pipesName (p : String) : String := p ++ "pipes"
/-- `{prefix}workflow`: workflow/core.py 1329. -/
def flowName (p : String) : String := p ++ "workflow"

/-- The statements which lock the inputs of a block: workflow/utils.py 63-65. -/
def lockStmts (s : Store τ α) (x : String) : Nat → List Nat → Except PyErr (List (Stmt π))
  | _, [] => .ok []
  | k, v :: vs => do
    let l ← (look s v).locked
    let r ← lockStmts s x (k + 1) vs
    .ok (if l then .lock x k :: r else r)

/-- The loop of `blocks_to_script`, from block number `k` on: workflow/utils.py 51-66.  `f` gives what comes before the declaration of a
block, its declaration and its imports. -/
def blockStmts (s : Store τ α) (p : String) (f : Blk β δ → Except PyErr (List (Stmt π) × Decl π × List Cls)) :
    Nat → List (Blk β δ) → Except PyErr (List (Stmt π) × List Cls)
  | _, [] => .ok ([], [])
  | k, b :: bs => do
    let d ← f b
    let l ← lockStmts s (blockName p k) 0 b.inputs
    let r ← blockStmts s p f (k + 1) bs
    .ok (d.1 ++ .setBlock (blockName p k) d.2.1 :: (l ++ r.1), d.2.2 ++ r.2)

/-- `nonblock_variables_to_script`, from variable number `k` on: workflow/utils.py 70-78, with `Variable._to_script`: workflow/core.py
153-167. -/
def varStmts (L : Lang β τ α π) (s : Store τ α) (p : String) : Nat → List Nat → List (Stmt π)
  | _, [] => []
  | k, v :: vs => .setVar (varName p k) (look s v).name (look s v).label (look s v).position (L.pretty (look s v).type) ::
    varStmts L s p (k + 1) vs

/-- The end of a pipe: workflow/core.py 1359-1369. -/
def endRef (p : String) (source : Bool) : Addr → Ref
  | .nbv i => .name (varName p i)
  | .port b _ i => if source then .output (blockName p b) i else .input (blockName p b) i

/-- The loop of `pipes_to_script`, from pipe number `k` on: workflow/core.py 1357-1371. -/
def pipeStmts (s : Store τ α) (p : String) (W : Flow β δ) : Nat → List (Nat × Nat) → Except PyErr (List (Stmt π))
  | _, [] => .ok []
  | k, q :: qs => do
    let a ← variableIndices (graph s W) q.1
    let b ← variableIndices (graph s W) q.2
    let r ← pipeStmts s p W (k + 1) qs
    .ok (.setPipe (pipeName p k) (endRef p true a) (endRef p false b) :: r)

/-- `output_name`: workflow/core.py 1324.  The subscript of an integer is a TypeError. -/
def outputRef (p : String) : Addr → Except PyErr Ref
  | .nbv _ => .error .typeError
  | .port b _ i => .ok (.output (blockName p b) i)

mutual
/-- `Workflow._to_script`: workflow/core.py 1301-1335: the statements and the imports.  The number bounds the depth of the calls: beyond
it, this is a RecursionError, as in Python. -/
def flowScript (L : Lang β τ α π) (s : Store τ α) : Nat → String → Flow β δ → Except PyErr (List (Stmt π) × List Cls)
  | 0, _, _ => .error .recursionError
  | n + 1, p, W =>
    match W.output with
    | none => .error .valueError
    | some o => do
      let a ← variableIndices (graph s W) o
      let bs ← blockStmts s p (blockScript L s n p) 0 W.blocks
      let free := nbvs (graph s W)
      let ps ← pipeStmts s p W 0 W.pipes
      let r ← outputRef p a
      .ok (.setDoc W.documentation :: bs.1 ++ [.setBlocks (blocksName p) ((List.range W.blocks.length).map (blockName p))] ++
          varStmts L s p 0 free ++ ps ++ [.setPipes (pipesName p) ((List.range W.pipes.length).map (pipeName p)),
          .setWf (flowName p) (blocksName p) (pipesName p) r W.name],
        bs.2 ++ free.flatMap (fun v => L.typeImports (look s v).type ++ [variableC]) ++ (if W.pipes.isEmpty then [] else [pipeC]) ++
          [workflowC])
/-- `_to_script` of the blocks: blocks.py 131-136, 436-447, 517-526 and the like: what comes before the declaration, the declaration and
the imports. -/
def blockScript (L : Lang β τ α π) (s : Store τ α) : Nat → String → Blk β δ → Except PyErr (List (Stmt π) × Decl π × List Cls)
  | 0, _, _ => .error .recursionError
  | n + 1, p, b =>
    match b.kind with
    | .leaf k => .ok ([], .leaf ((L.classes k).map (·.2)) (L.args k b.inputs.length) b.name b.position, L.classes k)
    | .sub W => do
      let r ← flowScript L s n (subPrefix p) W
      .ok (r.1, .sub (flowName (subPrefix p)) b.name b.position, r.2 ++ [workflowBlockC])
    | .each c i => do
      let r ← blockScript L s n p c
      .ok (r.1 ++ [.setBlock "wfblock" r.2.1], .each "wfblock" i b.name b.position, r.2.2 ++ [forEachC])
end

/-! ### Running a script -/

/-- The objects a name can stand for.  Used for workflow/core.py 1337-1348. -/
inductive Obj (β δ : Type) where
  | text (s : String)
  | var (v : Nat)
  | block (b : Blk β δ)
  | blocks (l : List (Blk β δ))
  | pipe (p : Nat × Nat)
  | pipes (l : List (Nat × Nat))
  | flow (W : Flow β δ)

/-- The state of the process: what the names of the script stand for, and the variables.  Used for workflow/core.py 1337-1348. -/
structure St (β τ α δ : Type) where
  env : String → Option (Obj β δ)
  store : Store τ α

/-- `x = value`.  Used for workflow/core.py 1337-1348. -/
def St.bind (σ : St β τ α δ) (x : String) (o : Obj β δ) : St β τ α δ :=
  { σ with env := fun y => if y = x then some o else σ.env y }

/-- The import lines, from the first: those of a module together (workflow/utils.py 23-50). -/
def importLines (imports : List Cls) : List Cls :=
  (imports.map (·.1)).eraseDups.flatMap fun m => imports.filter (·.1 == m)

/-- What a class name stands for after the import lines: the last import of this name wins.  Used for workflow/core.py 1337-1348. -/
def resolve (imports : List Cls) (x : String) : Option Cls := (importLines imports).reverse.find? (·.2 == x)

/-- The class of a name, NameError if there is none.  Used for workflow/core.py 1337-1348. -/
def classOf (res : String → Option Cls) (x : String) : Except PyErr Cls :=
  match res x with
  | some c => .ok c
  | none => .error .nameError

/-- The name `c.2` must stand for the class `c`.  Simplification: the call of an other class of this name is a TypeError.
Used for workflow/core.py 1337-1348. -/
def calls (res : String → Option Cls) (c : Cls) : Except PyErr Unit := do
  let d ← classOf res c.2
  if d = c then .ok () else .error .typeError

/-- The block of a name.  Used for workflow/core.py 1337-1348. -/
def getBlock (σ : St β τ α δ) (x : String) : Except PyErr (Blk β δ) :=
  match σ.env x with
  | some (.block b) => .ok b
  | some _ => .error .attributeError
  | none => .error .nameError

/-- The pipe of a name.  Used for workflow/core.py 1337-1348. -/
def getPipe (σ : St β τ α δ) (x : String) : Except PyErr (Nat × Nat) :=
  match σ.env x with
  | some (.pipe p) => .ok p
  | some _ => .error .attributeError
  | none => .error .nameError

/-- The workflow of a name.  Used for workflow/core.py 1337-1348. -/
def getFlow (σ : St β τ α δ) (x : String) : Except PyErr (Flow β δ) :=
  match σ.env x with
  | some (.flow W) => .ok W
  | some _ => .error .attributeError
  | none => .error .nameError

/-- `l[i]`.  Used for workflow/core.py 1337-1348. -/
def at' (l : List Nat) (i : Nat) : Except PyErr Nat :=
  match l[i]? with
  | some v => .ok v
  | none => .error .indexError

/-- The variable of a reference.  Used for workflow/core.py 1337-1348. -/
def getVar (σ : St β τ α δ) : Ref → Except PyErr Nat
  | .name x => match σ.env x with
    | some (.var v) => .ok v
    | some _ => .error .attributeError
    | none => .error .nameError
  | .input x i => do
    let b ← getBlock σ x
    at' b.inputs i
  | .output x i => do
    let b ← getBlock σ x
    at' b.outputs i

/-- The value of a declaration.  Used for workflow/core.py 1337-1348. -/
def evalDecl (L : Lang β τ α π) (res : String → Option Cls) (σ : St β τ α δ) : Decl π → Except PyErr (Blk β δ × Store τ α)
  | .leaf cs a name position => do
    let cs ← cs.mapM (classOf res)
    let b ← L.make cs a
    let name ← L.lit .double name
    newBlock L σ.store (.leaf b) name position
  | .sub x name position => do
    calls res workflowBlockC
    let W ← getFlow σ x
    let name ← L.lit .double name
    newBlock L σ.store (.sub W) name position
  | .each x i name position => do
    calls res forEachC
    let b ← getBlock σ x
    let name ← L.lit .double name
    newBlock L σ.store (.each b i) name position

/-- The documentation.  Used for workflow/core.py 1337-1348. -/
def getDoc (σ : St β τ α δ) : Except PyErr String :=
  match σ.env "documentation" with
  | some (.text t) => .ok t
  | some _ => .error .typeError
  | none => .error .nameError

/-- The list of blocks of a name.  Used for workflow/core.py 1337-1348. -/
def getBlocks (σ : St β τ α δ) (x : String) : Except PyErr (List (Blk β δ)) :=
  match σ.env x with
  | some (.blocks l) => .ok l
  | some _ => .error .typeError
  | none => .error .nameError

/-- The list of pipes of a name.  Used for workflow/core.py 1337-1348. -/
def getPipes (σ : St β τ α δ) (x : String) : Except PyErr (List (Nat × Nat)) :=
  match σ.env x with
  | some (.pipes l) => .ok l
  | some _ => .error .typeError
  | none => .error .nameError

/-- The execution of a statement.  Used for workflow/core.py 1337-1348. -/
def exec (L : Lang β τ α π) (res : String → Option Cls) (σ : St β τ α δ) : Stmt π → Except PyErr (St β τ α δ)
  | .setDoc t => do
    let t ← L.lit .triple t
    .ok (σ.bind "documentation" (.text t))
  | .setBlock x d => do
    let r ← evalDecl L res σ d
    .ok ({ σ with store := r.2 }.bind x (.block r.1))
  | .lock x i => do
    let v ← getVar σ (.input x i)
    let y ← (look σ.store v).lock none
    .ok { σ with store := σ.store.set v y }
  | .setBlocks x l => do
    let bs ← l.mapM (getBlock σ)
    .ok (σ.bind x (.blocks bs))
  | .setVar x name label position type => do
    calls res variableC
    let name ← L.lit .single name
    let label ← L.lit .single label
    let t ← L.readT res type
    .ok ({ σ with store := σ.store ++ [(⟨name, t, label, position, none, false⟩ : Var τ α)] }.bind x (.var σ.store.length))
  | .setPipe x a b => do
    calls res pipeC
    let v ← getVar σ a
    let u ← getVar σ b
    .ok (σ.bind x (.pipe (v, u)))
  | .setPipes x l => do
    let ps ← l.mapM (getPipe σ)
    .ok (σ.bind x (.pipes ps))
  | .setWf x bs ps o name => do
    calls res workflowC
    let blocks ← getBlocks σ bs
    let pipes ← getPipes σ ps
    let v ← getVar σ o
    let doc ← getDoc σ
    let name ← L.lit .double name
    let W ← newFlow σ.store blocks pipes v doc name
    .ok (σ.bind x (.flow W))

/-- The execution of a script.  Used for workflow/core.py 1337-1348. -/
def execAll (L : Lang β τ α π) (res : String → Option Cls) : St β τ α δ → List (Stmt π) → Except PyErr (St β τ α δ)
  | σ, [] => .ok σ
  | σ, c :: cs => do
    let σ ← exec L res σ c
    execAll L res σ cs

/-- `to_script`, whose script is run in a new process: workflow/core.py 1337-1348.  The store of the new process holds
`NAME_VARIABLE` only (workflow/core.py 170-173). -/
def rebuild (L : Lang β τ α π) (limit : Nat) (s : Store τ α) (W : Flow β δ) (s0 : Store τ α) : Except PyErr (Flow β δ × Store τ α) := do
  let r ← flowScript L s limit "" W
  let σ ← execAll L (resolve r.2) ({ env := fun _ => none, store := s0 } : St β τ α δ) r.1
  let W' ← getFlow σ (flowName "")
  .ok (W', σ.store)

end DC.Scr
