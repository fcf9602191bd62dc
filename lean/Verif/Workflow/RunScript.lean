import Verif.Workflow.Script
import Verif.Util.PyDict
/-
The scripts of runs (`WorkflowRun.to_script`), and what they do when they are run.
Sources: dessia_common/workflow/core.py 2205-2249; dessia_common/workflow/utils.py 81-121.

The script of a run is the script of its workflow (Workflow/Script.lean), followed by one assignment per value and by the dictionary which is
given to `run`.  What is written of a value is a text.
-/
set_option linter.unusedSectionVars false
namespace DC.Scr
open DC.Wkf

variable {β τ α δ π : Type} [Inhabited τ]

/-- What the model takes from the values: workflow/utils.py 81-121. -/
structure Vals (τ α : Type) where
  /-- `isinstance(value, SerializableObject)` -/
  isObj : α → Bool
  /-- the elements of the value if `is_sequence` holds of it (utils/types.py 56-73) -/
  elements : α → Option (List α)
  /-- `is_file_or_file_sequence` (utils/types.py 109-116) -/
  isFile : α → Bool
  /-- `value.__class__.__name__` -/
  cls : α → String
  /-- `repr(value)` -/
  repr : α → String
  /-- `update_imports`, for the annotation and the name of a variable (workflow/utils.py 81-84) -/
  imports : τ → String → Except PyErr (List Cls)
  /-- the value a text stands for in Python, given the classes of the names in it -/
  read : (String → Option Cls) → String → Except PyErr α

/-! ### What is written of a value -/

/-- `is_object_or_object_sequence`: workflow/utils.py 95-102. -/
def isObjects (V : Vals τ α) (x : α) : Bool :=
  if V.isObj x then true else match V.elements x with
    | some l => l.all V.isObj
    | none => false

/-- `generate_input_string`: workflow/utils.py 87-92. -/
def inputString (V : Vals τ α) (signature : String) (x : α) : String :=
  match V.elements x with
  | some l => "[" ++ ",".intercalate (l.map fun o => "\n\t" ++ V.cls o ++ signature) ++ "\n]"
  | none => V.cls x ++ signature

/-- `process_value`: workflow/utils.py 105-114. -/
def processValue (V : Vals τ α) (x : α) : String :=
  if isObjects V x then inputString V "('Set your arguments here')" x
  else if V.isFile x then inputString V ".from_file('Set your filepath here')" x
  else V.repr x

/-- `value_{block_index}` and, for a block, `_{input_index}`: workflow/utils.py 117-121, workflow/core.py 2227, 2234. -/
def valueName : Addr → String
  | .nbv k => "value_" ++ toString k
  | .port j _ i => "value_" ++ (toString j ++ ("_" ++ toString i))

/-! ### The texts of a script -/

/-- A reference as it is written: workflow/core.py 1324, 1361-1369, 2225. -/
def refText : Ref → String
  | .name x => x
  | .input x i => x ++ (".inputs[" ++ (toString i ++ "]"))
  | .output x i => x ++ (".outputs[" ++ (toString i ++ "]"))

/-- The texts in a declaration (see `Decl`).  `argText` is what is written of the other arguments.  Used for workflow/core.py 2226. -/
def declTexts (argText : π → String) : Decl π → List String
  | .leaf cs a name _ => cs ++ [argText a, name]
  | .sub w name _ => [w, name]
  | .each b _ name _ => [b, name]

/-- The texts in a statement (see `Stmt`).  Used for workflow/core.py 2226. -/
def stmtTexts (argText : π → String) : Stmt π → List String
  | .setDoc t => [t]
  | .setBlock x d => x :: declTexts argText d
  | .lock x i => [refText (.input x i)]
  | .setBlocks x l => x :: l
  | .setVar x n l _ t => [x, n, l, t]
  | .setPipe x a b => [x, refText a, refText b]
  | .setPipes x l => x :: l
  | .setWf x b p o n => [x, b, p, refText o, n]

/-- `key in text`.  Used for workflow/utils.py 81-121. -/
def holds (key text : String) : Bool := text.toList.tails.any fun u => key.toList.isPrefixOf u

/-- `key in workflow_script.declaration`: workflow/core.py 2226.  Simplification: `key` is searched in the names, the references and the
texts which are written; a key which would begin in one of them and end in the next is not represented. -/
def written (argText : π → String) (st : List (Stmt π)) (key : String) : Bool :=
  st.any fun c => (stmtTexts argText c).any (holds key)

/-! ### The values of the inputs -/

/-- The comprehensions of `_split_input_values`, from input number `k` on: workflow/core.py 2207-2210. -/
def valuesAt (vals : Nat → Option α) (keep : Nat → Bool) : Nat → List Nat → Except PyErr (List α)
  | _, [] => .ok []
  | k, v :: vs => if keep v then match vals k with
      | none => .error .keyError
      | some x => do
        let r ← valuesAt vals keep (k + 1) vs
        .ok (x :: r)
    else valuesAt vals keep (k + 1) vs

/-- One value of the script: the reference given to `input_index`, the name of the value, what is written of it, and the imports.
Used for workflow/core.py 2227-2230, 2234-2236. -/
structure Entry where
  ref : Ref
  name : String
  text : String
  imports : List Cls

/-- One turn of the loops of `_to_script`, for the variable `v` at the address `a`; `x` is the value found in the list, IndexError if there is
none: workflow/core.py 2227-2230, 2234-2236. -/
def entry (V : Vals τ α) (s : Store τ α) (a : Addr) (v : Nat) : Option α → Except PyErr Entry
  | none => .error .indexError
  | some x => do
    let I ← V.imports (look s v).type (look s v).name
    .ok ⟨endRef "" false a, valueName a, processValue V x, I⟩

/-- The loop on the inputs of block number `j`, from input number `i` on, with `index_`: workflow/core.py 2224-2230. -/
def portEntries (V : Vals τ α) (s : Store τ α) (inText : String → Bool) (bv : List α) (j : Nat) :
    Nat → List Nat → Nat → Except PyErr (List Entry × Nat)
  | _, [], n => .ok ([], n)
  | i, v :: vs, n =>
    if inText (refText (.input (blockName "" j) i)) then portEntries V s inText bv j (i + 1) vs n
    else do
      let e ← entry V s (.port j false i) v bv[n]?
      let r ← portEntries V s inText bv j (i + 1) vs (n + 1)
      .ok (e :: r.1, r.2)

/-- The loop on the blocks, from block number `j` on, with `index_`: workflow/core.py 2223-2230. -/
def blockEntries (V : Vals τ α) (s : Store τ α) (inText : String → Bool) (bv : List α) :
    Nat → List (Blk β δ) → Nat → Except PyErr (List Entry)
  | _, [], _ => .ok []
  | j, b :: bs, n => do
    let r ← portEntries V s inText bv j 0 b.inputs n
    let q ← blockEntries V s inText bv (j + 1) bs r.2
    .ok (r.1 ++ q)

/-- The loop on the free variables, from number `k` on: workflow/core.py 2233-2236. -/
def freeEntries (V : Vals τ α) (s : Store τ α) (nv : List α) : Nat → List Nat → Except PyErr (List Entry)
  | _, [] => .ok []
  | k, v :: vs => do
    let e ← entry V s (.nbv k) v nv[k]?
    let r ← freeEntries V s nv (k + 1) vs
    .ok (e :: r)

/-- `WorkflowRun._to_script`: workflow/core.py 2213-2238.  `vals` are the `input_values` of the run. -/
def runEntries (V : Vals τ α) (s : Store τ α) (W : Flow β δ) (vals : Nat → Option α) (inText : String → Bool) :
    Except PyErr (List Entry) := do
  let free := nbvs (graph s W)
  let nv ← valuesAt vals (fun v => decide (v ∈ free)) 0 (inputs (graph s W))
  let bv ← valuesAt vals (fun v => !decide (v ∈ free)) 0 (inputs (graph s W))
  let b ← blockEntries V s inText bv 0 W.blocks 0
  let f ← freeEntries V s nv 0 free
  .ok (b ++ f)

/-! ### Running the script of a run -/

/-- The assignments `value_… = …`: workflow/core.py 2245, workflow/utils.py 121.  These names are not used before. -/
def assign (V : Vals τ α) (res : String → Option Cls) (es : List Entry) : Except PyErr (List (String × α)) :=
  es.mapM fun e => do
    let x ← V.read res e.text
    .ok (e.name, x)

/-- The value of a name: the last assignment to it.  Used for workflow/core.py 2245-2246. -/
def getValue (env : List (String × α)) (x : String) : Except PyErr α :=
  match env.reverse.lookup x with
  | some y => .ok y
  | none => .error .nameError

/-- The dictionary `input_values`, in the state `σ` where the workflow is `W`: workflow/core.py 2245-2246.  A key can be `None`. -/
def dictOf (σ : St β τ α δ) (W : Flow β δ) (env : List (String × α)) :
    List (Option Nat × α) → List Entry → Except PyErr (List (Option Nat × α))
  | d, [] => .ok d
  | d, e :: es => do
    let v ← getVar σ e.ref
    let x ← getValue env e.name
    dictOf σ W env (Dict.set d (inputIndex (graph σ.store W) v) x) es

/-- The indices given to `run`: `None` is not one (`self.inputs[None]` is a TypeError, workflow/core.py 1230). -/
def asUser (d : List (Option Nat × α)) : Except PyErr (List (Nat × α)) :=
  d.mapM fun kx => match kx.1 with
    | some k => .ok (k, kx.2)
    | none => .error .typeError

/-- `WorkflowRun.to_script`, whose script is run in a new process up to the call of `run`: workflow/core.py 2240-2249.  The result is the
workflow which is run, the variables, and the `input_values` given to `run`. -/
def rerun (L : Lang β τ α π) (V : Vals τ α) (argText : π → String) (limit : Nat) (s : Store τ α) (W : Flow β δ) (vals : Nat → Option α)
    (s0 : Store τ α) : Except PyErr (Flow β δ × Store τ α × List (Nat × α)) := do
  let r ← flowScript L s limit "" W
  let es ← runEntries V s W vals (written argText r.1)
  let res := resolve (r.2 ++ es.flatMap (·.imports))
  let σ ← execAll L res ({ env := fun _ => none, store := s0 } : St β τ α δ) r.1
  let W' ← getFlow σ (flowName "")
  let env ← assign V res es
  let d ← dictOf σ W' env [] es
  let user ← asUser d
  .ok (W', σ.store, user)

end DC.Scr
