import Verif.Workflow.Persist
import Verif.Util.PyList
/-
The classes of blocks of the library, one by one: construction, dicts, copies, comparison, hashes, scripts and evaluation.
Sources: dessia_common/workflow/blocks.py 80-1579; dessia_common/workflow/core.py 46-60, 102-126, 140-152, 176-252; dessia_common/typings.py
26-133; dessia_common/core.py 347-363, 850-878; dessia_common/serialization.py 40-124, 290-351; dessia_common/utils/copy.py 12-100.

A block is here a record with its variables in it (Workflow/Persist.lean shares variables between blocks and pipes; a block alone does not
need it).  `τ` are the annotations, `α` the values and `ω` the workflows which a `WorkflowBlock` holds: their own reading, copy and
comparison are those of Workflow/Persist.lean, taken here as given functions.
Simplifications: numbers (bounds, positions) are integers, and the numbers of ports are natural numbers; a position is a pair, written as a
list and read as a pair; an entry of a dict which has not the type that the constructor documents is a TypeError when it is read.
-/
set_option linter.unusedSectionVars false
namespace DC.Cat
open DC.Wkf

/-- A class: its module and its name.  Used for utils/helpers.py 56-62. -/
structure Cls where
  module : String
  name : String
  deriving DecidableEq, Repr, Inhabited

/-- `full_classname` of a class: utils/helpers.py 56-62. -/
def Cls.full (c : Cls) : String := c.module ++ "." ++ c.name

/-- The classes of the references to methods, attributes and views: typings.py 26-133. -/
inductive RefClass where
  | method | classMethod | attribute | cad | markdown | plot
  deriving DecidableEq, Repr

/-- Their names: typings.py 26, 59, 66, 112, 118, 124. -/
def RefClass.name : RefClass → String
  | .method => "MethodType"
  | .classMethod => "ClassMethodType"
  | .attribute => "AttributeType"
  | .cad => "CadViewType"
  | .markdown => "MarkdownType"
  | .plot => "PlotDataType"

/-- A reference to a method, an attribute or a view of a class: typings.py 29-31, 69-71. -/
structure Ref where
  kind : RefClass
  cls : Cls
  name : String
  deriving DecidableEq, Repr

/-- A `DessiaFilter`: core.py 851-855. -/
structure Filt where
  attr : String
  operator : String
  bound : Int
  name : String
  deriving DecidableEq, Repr

/-- A `ScatterView` or a `ParallelView`: blocks.py 1537-1579. -/
structure View where
  scatter : Bool
  attributes : List String
  name : String
  deriving DecidableEq, Repr

/-- The three classes of blocks which show a view: blocks.py 1027, 1077, 1128. -/
inductive Shown where
  | cad | markdown | plot
  deriving DecidableEq, Repr

/-- The `WorkflowBlock` of a `ForEach`: blocks.py 460-464. -/
structure Inner (τ α ω : Type) where
  flow : ω
  name : String
  position : Int × Int
  ins : List (Var τ α)
  outs : List (Var τ α)

/-- The class of a block and the arguments of its constructor: the `__init__` methods of blocks.py.  Used for blocks.py 89. -/
inductive Kind (τ α ω : Type) where
  /-- `InstantiateModel`: blocks.py 89 -/
  | instantiate (c : Cls)
  /-- `ClassMethod`: blocks.py 150 -/
  | classMethod (m : Ref)
  /-- `ModelMethod`: blocks.py 220 -/
  | modelMethod (m : Ref)
  /-- `Sequence`: blocks.py 300 -/
  | sequence (n : Nat)
  /-- `Concatenate`: blocks.py 340 -/
  | concatenate (n : Nat)
  /-- `WorkflowBlock`: blocks.py 384 -/
  | workflow (W : ω)
  /-- `ForEach`: blocks.py 460 -/
  | forEach (b : Inner τ α ω) (i : Int)
  /-- `Unpacker`: blocks.py 538 -/
  | unpacker (indices : List Int)
  /-- `Flatten`: blocks.py 576 -/
  | flatten
  /-- `Product`: blocks.py 608 -/
  | product (n : Nat)
  /-- `Filter`: blocks.py 650 -/
  | filter (filters : List Filt) (operator : String)
  /-- `DeprecatedMultiPlot`: blocks.py 786 -/
  | oldMultiPlot (attributes : List String) (load : Bool)
  /-- `MultiPlot`: blocks.py 847 (its selector is made of the class `DessiaObject` and of the name) -/
  | multiPlot (selector : String) (attributes : List String) (load : Bool)
  /-- `MultiObject`: blocks.py 944 -/
  | multiObject (selector : String) (views : List View) (load : Bool)
  /-- `DeprecatedCadView`, `DeprecatedMarkdown`, `DeprecatedPlotData`: blocks.py 1018, 1068, 1119 -/
  | oldDisplay (t : Shown) (selector : String) (load : Bool)
  /-- `CadView`, `Markdown`, `PlotData`: blocks.py 1032, 1082, 1134 -/
  | display (t : Shown) (selector : Ref) (load : Bool)
  /-- `ModelAttribute`: blocks.py 1167 -/
  | modelAttribute (name : String)
  /-- `GetModelAttribute`: blocks.py 1207 -/
  | getAttribute (r : Ref)
  /-- `SetModelAttribute`: blocks.py 1258 -/
  | setAttribute (r : Ref)
  /-- `Sum`: blocks.py 1304 -/
  | sum (n : Nat)
  /-- `Substraction`: blocks.py 1341 -/
  | substraction
  /-- `ConcatenateStrings`: blocks.py 1372 -/
  | strings (n : Nat) (separator : String)
  /-- `Export`: blocks.py 1426 -/
  | «export» (m : Ref) (text : Bool) (extension filename : String)
  /-- `Archive`: blocks.py 1487 -/
  | archive (n : Nat) (filename : String)

/-- The classes of blocks.  blocks.py 80-1478. -/
inductive Tag where
  | instantiate | classMethod | modelMethod | sequence | concatenate | workflow | forEach | unpacker | flatten | product | filter
  | oldMultiPlot | multiPlot | multiObject | oldCad | oldMarkdown | oldPlot | cad | markdown | plot
  | modelAttribute | getAttribute | setAttribute | sum | substraction | strings | «export» | archive
  deriving DecidableEq, Repr

/-- Their names, in blocks.py.  blocks.py 80-1478. -/
def Tag.name : Tag → String
  | .instantiate => "InstantiateModel"
  | .classMethod => "ClassMethod"
  | .modelMethod => "ModelMethod"
  | .sequence => "Sequence"
  | .concatenate => "Concatenate"
  | .workflow => "WorkflowBlock"
  | .forEach => "ForEach"
  | .unpacker => "Unpacker"
  | .flatten => "Flatten"
  | .product => "Product"
  | .filter => "Filter"
  | .oldMultiPlot => "DeprecatedMultiPlot"
  | .multiPlot => "MultiPlot"
  | .multiObject => "MultiObject"
  | .oldCad => "DeprecatedCadView"
  | .oldMarkdown => "DeprecatedMarkdown"
  | .oldPlot => "DeprecatedPlotData"
  | .cad => "CadView"
  | .markdown => "Markdown"
  | .plot => "PlotData"
  | .modelAttribute => "ModelAttribute"
  | .getAttribute => "GetModelAttribute"
  | .setAttribute => "SetModelAttribute"
  | .sum => "Sum"
  | .substraction => "Substraction"
  | .strings => "ConcatenateStrings"
  | .export => "Export"
  | .archive => "Archive"

/-- All the classes of blocks.  blocks.py 80-1478. -/
def Tag.all : List Tag :=
  [.instantiate, .classMethod, .modelMethod, .sequence, .concatenate, .workflow, .forEach, .unpacker, .flatten, .product, .filter,
    .oldMultiPlot, .multiPlot, .multiObject, .oldCad, .oldMarkdown, .oldPlot, .cad, .markdown, .plot, .modelAttribute, .getAttribute,
    .setAttribute, .sum, .substraction, .strings, .export, .archive]

/-- A class of blocks.  blocks.py 80-1478. -/
def Tag.cls (t : Tag) : Cls := ⟨"dessia_common.workflow.blocks", t.name⟩

/-- A class of references.  typings.py 26-133. -/
def RefClass.cls (r : RefClass) : Cls := ⟨"dessia_common.typings", r.name⟩

/-- `ScatterView` or `ParallelView`.  Used for serialization.py 50-64. -/
def viewCls (scatter : Bool) : Cls := ⟨"dessia_common.workflow.blocks", if scatter then "ScatterView" else "ParallelView"⟩

/-- `DessiaFilter`.  Used for serialization.py 50-64. -/
def filterCls : Cls := ⟨"dessia_common.core", "DessiaFilter"⟩

/-- The class of a block which shows a view.  Used for workflow/core.py 188-191. -/
def Shown.tag : Shown → Tag
  | .cad => .cad
  | .markdown => .markdown
  | .plot => .plot

/-- The deprecated class of a block which shows a view.  Used for workflow/core.py 188-191. -/
def Shown.oldTag : Shown → Tag
  | .cad => .oldCad
  | .markdown => .oldMarkdown
  | .plot => .oldPlot

/-- The class of the selectors of a block which shows a view: blocks.py 1049, 1099, 1151. -/
def Shown.refClass : Shown → RefClass
  | .cad => .cad
  | .markdown => .markdown
  | .plot => .plot

variable {τ α ω : Type}

/-- `__class__` of a block.  blocks.py 80-1478. -/
def Kind.tag : Kind τ α ω → Tag
  | .instantiate _ => .instantiate
  | .classMethod _ => .classMethod
  | .modelMethod _ => .modelMethod
  | .sequence _ => .sequence
  | .concatenate _ => .concatenate
  | .workflow _ => .workflow
  | .forEach _ _ => .forEach
  | .unpacker _ => .unpacker
  | .flatten => .flatten
  | .product _ => .product
  | .filter _ _ => .filter
  | .oldMultiPlot _ _ => .oldMultiPlot
  | .multiPlot _ _ _ => .multiPlot
  | .multiObject _ _ _ => .multiObject
  | .oldDisplay t _ _ => t.oldTag
  | .display t _ _ => t.tag
  | .modelAttribute _ => .modelAttribute
  | .getAttribute _ => .getAttribute
  | .setAttribute _ => .setAttribute
  | .sum _ => .sum
  | .substraction => .substraction
  | .strings _ _ => .strings
  | .export _ _ _ _ => .export
  | .archive _ _ => .archive

/-- A block object: workflow/core.py 181-186. -/
structure Blk (τ α ω : Type) where
  kind : Kind τ α ω
  name : String
  position : Int × Int
  ins : List (Var τ α)
  outs : List (Var τ α)

/-- A JSON value.  Used for workflow/core.py 108-117. -/
inductive J where
  | null
  | bool (b : Bool)
  | int (i : Int)
  | str (s : String)
  | list (l : List J)
  | dict (d : List (String × J))

/-- What the model takes from Python, from the classes of the user and from the workflows.  Used for utils/helpers.py 65-80. -/
structure Setting (τ α ω : Type) where
  /-- `get_python_class_from_class_name`: utils/helpers.py 65-80 -/
  load : String → Except PyErr Cls
  /-- the name of the metaclass of a class -/
  metaName : Cls → String
  /-- `_method_inputs` of the constructor of a class: blocks.py 32-50 -/
  initIns : Cls → Except PyErr (List (Proto τ α))
  /-- `_method_inputs` and the type of the result of a method of a class: blocks.py 32-59, typings.py 36-38 -/
  method : Cls → String → Except PyErr (List (Proto τ α) × τ)
  /-- `AttributeType.type_`: typings.py 76-87 -/
  attrType : Cls → String → Except PyErr τ
  /-- the annotation which is a class -/
  ofClass : Cls → τ
  /-- the type of a variable made without type -/
  noType : τ
  /-- `str`, `List[T]`, `List[DessiaObject]`, `DessiaObject`, `DisplayObject` -/
  strT : τ
  listT : τ
  objectsT : τ
  objectT : τ
  displayT : τ
  /-- `serialize_annotation` and `pretty_annotation` -/
  serT : τ → String
  prettyT : τ → String
  /-- `serialize` and `deserialize` of a default value -/
  ser : α → J
  des : J → α
  /-- the empty string as a value, and a file name as a value -/
  text : String → α
  /-- whether a string designates something importable, so that `deserialize` replaces it: utils/types.py 24-46 -/
  designates : String → Bool
  /-- the inputs and the output of a workflow -/
  wfIns : ω → List (Var τ α)
  wfOut : ω → Option (Var τ α)
  /-- `to_dict`, `dict_to_object`, deep copy, `==` and `hash` of a workflow -/
  wfWrite : ω → Except PyErr J
  wfRead : J → Except PyErr ω
  wfCopy : ω → Except PyErr ω
  wfEq : ω → ω → Except PyErr Bool
  wfHash : ω → Except PyErr Int
  /-- `hash` of a string, of a number and of a view -/
  hashS : String → Int
  hashN : Int → Int
  hashV : View → Int
  /-- the string that a text between quotes stands for, by kind of quote (`true` for double) -/
  lit : Bool → String → Except PyErr String

variable (E : Setting τ α ω)

/-! ### Constructors -/

/-- A variable made from a name only: workflow/core.py 51-60. -/
def untyped (n : String) : Var τ α := ⟨n, E.noType, "", (0, 0), none, false⟩

/-- A variable made from a name and a type: workflow/core.py 51-60. -/
def typed (t : τ) (n : String) : Var τ α := ⟨n, t, "", (0, 0), none, false⟩

/-- A variable made from a name, a type and a default value: workflow/core.py 51-60. -/
def filled (t : τ) (n : String) (d : α) : Var τ α := ⟨n, t, "", (0, 0), some d, false⟩

/-- `[Variable(name=f"{prefix}{i}") for i in range(n)]`, counted from `k`: blocks.py 302, 342, 610, 1306, 1493. -/
def numbered (p : String) (k n : Nat) : List (Var τ α) := (List.range n).map fun i => untyped E (p ++ toString (i + k))

/-- A copy with a new name: blocks.py 390-392, 472-474, with `Variable.copy`: workflow/core.py 140-152. -/
def copyNamed (f : String → String) (x : Var τ α) : Except PyErr (Var τ α) := do
  let y ← copyVar x
  .ok { y with name := f y.name }

/-- The inputs of a `ForEach`, from input number `k` on: blocks.py 466-474. -/
def eachIns (i : Int) : Nat → List (Var τ α) → Except PyErr (List (Var τ α))
  | _, [] => .ok []
  | k, x :: xs => do
    let y ← if (k : Int) = i then .ok (untyped E ("Iterable input: " ++ x.name)) else copyNamed ("Binding: " ++ ·) x
    let ys ← eachIns i (k + 1) xs
    .ok (y :: ys)

/-- The inputs and the output of a `WorkflowBlock`: blocks.py 389-395 (`None` has no copy). -/
def subPorts (W : ω) (name : String) : Except PyErr (List (Var τ α) × List (Var τ α)) := do
  let xs ← (E.wfIns W).mapM (copyNamed fun n => name ++ " - " ++ n)
  match E.wfOut W with
  | none => .error .attributeError
  | some o => do
    let y ← copyVar o
    .ok (xs, [y])

/-- The inputs and outputs which the constructors make, in the order of the classes in blocks.py: 89-93, 150-156, 220-232, 300-304, 340-344,
384-396, 460-477, 538-541, 576-579, 608-612, 650-656, 701-707, 786-792, 847-853, 944-949, 1018-1024, 1032-1039, 1068-1074, 1082-1089, 1119-1125,
1134-1141, 1167-1171, 1207-1211, 1258-1263, 1304-1307, 1341-1343, 1372-1378, 1426-1440, 1487-1495. -/
def ports (name : String) : Kind τ α ω → Except PyErr (List (Var τ α) × List (Var τ α))
  | .instantiate c => do
    let xs ← E.initIns c
    .ok (xs.map Proto.var, [typed (E.ofClass c) "Model"])
  | .classMethod m => do
    let (xs, t) ← E.method m.cls m.name
    .ok (xs.map Proto.var, [typed t "Return"])
  | .modelMethod m => do
    let (xs, t) ← E.method m.cls m.name
    .ok (typed (E.ofClass m.cls) "Model" :: xs.map Proto.var, [typed t "Return", typed (E.ofClass m.cls) "Model"])
  | .sequence n => .ok (numbered E "Sequence element " 0 n, [untyped E "Sequence"])
  | .concatenate n => .ok (numbered E "Sequence element " 0 n, [typed E.listT "Sequence"])
  | .workflow W => subPorts E W name
  | .forEach b i => do
    let _ ← Py.get b.ins i
    let xs ← eachIns E i 0 b.ins
    .ok (xs, [untyped E "Foreach output"])
  | .unpacker l => .ok ([untyped E "Sequence"], l.map fun i => untyped E ("Element " ++ toString i))
  | .flatten => .ok ([untyped E "Sequence"], [untyped E "Flattened sequence"])
  | .product n => .ok (numbered E "Sequence " 0 n, [untyped E "Product"])
  | .filter _ _ => .ok ([untyped E "Sequence"], [untyped E "Filtered sequence"])
  | .oldMultiPlot _ _ => .ok ([typed E.objectsT "Input List"], [typed E.displayT "Display Object"])
  | .multiPlot _ _ _ => .ok ([typed E.objectsT "Sequence"], [typed E.displayT "Display Object"])
  | .multiObject _ _ _ => .ok ([typed E.objectsT "Sequence"], [typed E.displayT "Display Object"])
  | .oldDisplay _ _ _ => .ok ([typed E.objectT "Model to display"], [typed E.displayT "Display Object"])
  | .display _ s _ => .ok ([typed (E.ofClass s.cls) "Model"], [typed E.displayT "Display Object"])
  | .modelAttribute _ => .ok ([untyped E "Model"], [untyped E "Attribute value"])
  | .getAttribute r => do
    let t ← E.attrType r.cls r.name
    .ok ([typed (E.ofClass r.cls) "Model"], [typed t "Attribute"])
  | .setAttribute r => do
    let t ← E.attrType r.cls r.name
    .ok ([typed (E.ofClass r.cls) "Model", typed t "Value"], [typed (E.ofClass r.cls) "Model"])
  | .sum n => .ok (numbered E "Sum element " 1 n, [untyped E "Sum"])
  | .substraction => .ok ([untyped E "+", untyped E "-"], [untyped E "Substraction"])
  | .strings n _ => .ok ((List.range n).map fun i => filled E.strT ("Substring " ++ toString (i + 1)) (E.text ""),
      [typed E.strT "Concatenation"])
  | .export m _ _ f => do
    let (_, t) ← E.method m.cls m.name
    .ok ([typed (E.ofClass m.cls) "Model", filled E.strT "Filename" (E.text f)], [typed t "Stream"])
  | .archive n f => .ok (numbered E "Export " 0 n ++ [filled E.strT "Filename" (E.text f)], [untyped E "Archive"])

/-- The arguments as the constructors keep them: an `Export` without file name gets one (blocks.py 1429-1430). -/
def Kind.kept : Kind τ α ω → Kind τ α ω
  | .export m t e f => .export m t e (if f = "" then "export" else f)
  | k => k

/-- The name as the constructors keep it: a `ModelMethod` without name gets one (blocks.py 230-231). -/
def Kind.keptName : Kind τ α ω → String → String
  | .modelMethod m, name => if name = "" then "Model method: " ++ m.name else name
  | _, name => name

/-- The call of the constructor of a block: workflow/core.py 181-186 and the `__init__` methods of blocks.py. -/
def construct (k : Kind τ α ω) (name : String) (position : Int × Int) : Except PyErr (Blk τ α ω) := do
  let (xs, ys) ← ports E name k.kept
  .ok ⟨k.kept, k.keptName name, position, xs, ys⟩

/-! ### Dicts -/

/-- A position in a dict.  Used for workflow/core.py 108-117. -/
def posJ (p : Int × Int) : J := .list [.int p.1, .int p.2]

/-- `Variable.to_dict`: workflow/core.py 108-117. -/
def varJ (x : Var τ α) : Except PyErr J := do
  let l ← x.locked
  .ok (.dict ([("object_class", .str "dessia_common.workflow.core.Variable"), ("name", .str x.name), ("type_", .str (E.serT x.type)),
    ("position", posJ x.position), ("pretty_type", .str (E.prettyT x.type)), ("label", .str x.label), ("locked", .bool l)] ++
    match x.default with
    | none => []
    | some d => [("default_value", E.ser d)]))

/-- `MethodType.to_dict`, `AttributeType.to_dict`: typings.py 46-50, 89-93. -/
def Ref.toJ (r : Ref) : J :=
  .dict [("class_", .str r.cls.full), ("name", .str r.name), ("object_class", .str r.kind.cls.full)]

/-- The dict of a filter: serialization.py 50-64. -/
def Filt.toJ (f : Filt) : J :=
  .dict [("object_class", .str filterCls.full), ("attribute", .str f.attr), ("comparison_operator", .str f.operator),
    ("bound", .int f.bound), ("name", .str f.name)]

/-- The dict of a view: serialization.py 50-64. -/
def View.toJ (v : View) : J :=
  .dict [("object_class", .str (viewCls v.scatter).full), ("attributes", .list (v.attributes.map .str)), ("name", .str v.name)]

/-- The dict of the selector of a `MultiPlot` or a `MultiObject`: blocks.py 851, 948. -/
def plotSelector (s : String) : J := Ref.toJ ⟨.plot, ⟨"dessia_common.core", "DessiaObject"⟩, s⟩

/-- The entries of every block, `Block.to_dict`: workflow/core.py 188-191, serialization.py 40-64. -/
def baseJ (t : Tag) (name : String) (position : Int × Int) (ins outs : List (Var τ α)) : Except PyErr (List (String × J)) := do
  let xs ← ins.mapM (varJ E)
  let ys ← outs.mapM (varJ E)
  .ok [("object_class", .str t.cls.full), ("name", .str name), ("inputs", .list xs), ("outputs", .list ys), ("position", posJ position)]

/-- The other entries: the attributes of the classes of blocks.py but the non serializable ones (144, 214), and those which `to_dict` adds
(897-903, 988-994, 1497-1503).  The entries of a `ForEach` besides its block and its index, which are not read, are left out.
Used for workflow/core.py 188-191. -/
def kindJ : Kind τ α ω → Except PyErr (List (String × J))
  | .instantiate c => .ok [("model_class", .str c.full)]
  | .classMethod m => .ok [("method_type", m.toJ)]
  | .modelMethod m => .ok [("method_type", m.toJ)]
  | .sequence n => .ok [("number_arguments", .int n)]
  | .concatenate n => .ok [("number_arguments", .int n)]
  | .workflow W => do
    let d ← E.wfWrite W
    .ok [("workflow", d)]
  | .forEach b i => do
    let e ← baseJ E .workflow b.name b.position b.ins b.outs
    let d ← E.wfWrite b.flow
    .ok [("workflow_block", .dict (e ++ [("workflow", d)])), ("iter_input_index", .int i)]
  | .unpacker l => .ok [("indices", .list (l.map .int))]
  | .flatten => .ok []
  | .product n => .ok [("number_list", .int n)]
  | .filter fs op => .ok [("filters", .list (fs.map Filt.toJ)), ("logical_operator", .str op)]
  | .oldMultiPlot as l => .ok [("attributes", .list (as.map .str)), ("load_by_default", .bool l), ("selector", .null), ("serialize", .bool true)]
  | .multiPlot s as l => .ok [("attributes", .list (as.map .str)), ("load_by_default", .bool l), ("selector", plotSelector s),
      ("selector_name", .str s)]
  | .multiObject s vs l => .ok [("configurations", .list (vs.map View.toJ)), ("load_by_default", .bool l), ("selector", plotSelector s),
      ("selector_name", .str s)]
  | .oldDisplay _ s l => .ok [("load_by_default", .bool l), ("selector", .str s)]
  | .display _ s l => .ok [("load_by_default", .bool l), ("selector", s.toJ)]
  | .modelAttribute a => .ok [("attribute_name", .str a)]
  | .getAttribute r => .ok [("attribute_type", r.toJ)]
  | .setAttribute r => .ok [("attribute_type", r.toJ)]
  | .sum n => .ok [("number_elements", .int n)]
  | .substraction => .ok []
  | .strings n s => .ok [("number_elements", .int n), ("separator", .str s)]
  | .export m t e f => .ok [("method_type", m.toJ), ("filename", .str f), ("extension", .str e), ("text", .bool t)]
  | .archive n f => .ok [("number_exports", .int n), ("filename", .str f), ("extension", .str "zip"), ("text", .bool false)]

/-- The arguments which are written: the number of exports of an `Archive` is that of its inputs but one.  blocks.py 1501. -/
def Blk.written (b : Blk τ α ω) : Kind τ α ω :=
  match b.kind with
  | .archive _ f => .archive (b.ins.length - 1) f
  | k => k

/-- `to_dict` of a block: workflow/core.py 188-191; blocks.py 897-903, 988-994, 1497-1503. -/
def write (b : Blk τ α ω) : Except PyErr J := do
  let e ← baseJ E b.kind.tag b.name b.position b.ins b.outs
  let d ← kindJ E b.written
  .ok (.dict (e ++ d))

/-! ### Reading -/

/-- `dict_[key]`.  Used for serialization.py 290-351. -/
def J.get (d : J) (k : String) : Except PyErr J :=
  match d with
  | .dict l => match l.lookup k with
    | some v => .ok v
    | none => .error .keyError
  | _ => .error .typeError

/-- `dict_.get(key)`.  Used for workflow/core.py 119-126. -/
def J.get? (d : J) (k : String) : Option J :=
  match d with
  | .dict l => l.lookup k
  | _ => none

/-- A string.  Used for workflow/core.py 119-126. -/
def J.text : J → Except PyErr String
  | .str s => .ok s
  | _ => .error .typeError

/-- A boolean.  Used for blocks.py 1044-1053, 1094-1103, 1146-1155. -/
def J.flag : J → Except PyErr Bool
  | .bool b => .ok b
  | _ => .error .typeError

/-- An integer.  Used for serialization.py 290-351. -/
def J.number : J → Except PyErr Int
  | .int i => .ok i
  | _ => .error .typeError

/-- A number of ports.  Used for blocks.py 314-319. -/
def J.count (j : J) : Except PyErr Nat := do
  let i ← j.number
  .ok i.toNat

/-- A list.  Used for workflow/core.py 240-252. -/
def J.items : J → Except PyErr (List J)
  | .list l => .ok l
  | _ => .error .typeError

/-- A position.  Used for blocks.py 105-111. -/
def J.pos : J → Except PyErr (Int × Int)
  | .list [.int x, .int y] => .ok (x, y)
  | _ => .error .typeError

/-- The entry of a dict which is a string, and so on.  Used for typings.py 52-56, 95-99. -/
def J.textAt (d : J) (k : String) : Except PyErr String := do
  let v ← d.get k
  v.text

/-- See `J.textAt`.  Used for blocks.py 1044-1053, 1094-1103, 1146-1155. -/
def J.flagAt (d : J) (k : String) : Except PyErr Bool := do
  let v ← d.get k
  v.flag

/-- See `J.textAt`.  Used for serialization.py 330-351. -/
def J.countAt (d : J) (k : String) : Except PyErr Nat := do
  let v ← d.get k
  v.count

/-- See `J.textAt`.  Used for serialization.py 290-351. -/
def J.textsAt (d : J) (k : String) : Except PyErr (List String) := do
  let v ← d.get k
  let l ← v.items
  l.mapM J.text

/-- See `J.textAt`.  Used for blocks.py 408-414. -/
def J.posAt (d : J) (k : String) : Except PyErr (Int × Int) := do
  let v ← d.get k
  v.pos

/-- `update_from_config`: workflow/core.py 119-126; an entry which is missing is the default one. -/
def configure (x : Var τ α) (c : J) : Except PyErr (Var τ α) := do
  let label ← match c.get? "label" with
    | none => .ok ""
    | some l => l.text
  let y := { x with default := (c.get? "default_value").map E.des, label := label }
  match c.get? "locked" with
  | some (.bool true) => y.lock none
  | _ => .ok y

/-- The loop on `zip(self.inputs, dict_["inputs"])`: workflow/core.py 246-252. -/
def configureAll : List (Var τ α) → List J → Except PyErr (List (Var τ α))
  | x :: xs, c :: cs => do
    let y ← configure E x c
    let ys ← configureAll xs cs
    .ok (y :: ys)
  | xs, _ => .ok xs

/-- `deserialize_variables` on the inputs or on the outputs: workflow/core.py 240-252. -/
def configureAt (d : J) (k : String) (xs : List (Var τ α)) : Except PyErr (List (Var τ α)) :=
  match d.get? k with
  | none => .ok xs
  | some l => do
    let l ← l.items
    configureAll E xs l

/-- `MethodType.dict_to_object`, `AttributeType.dict_to_object`, called on a class: typings.py 52-56, 95-99. -/
def readRef (r : RefClass) (d : J) : Except PyErr Ref := do
  let c ← d.textAt "class_"
  let c ← E.load c
  let n ← d.textAt "name"
  .ok ⟨r, c, n⟩

/-- `deserialize` of a string: serialization.py 271-274.  A string which designates something importable is replaced by it. -/
def plain (s : String) : Except PyErr String := if E.designates s then .error .typeError else .ok s

/-- The entry of a dict read by `deserialize`: serialization.py 335-348. -/
def J.plainAt (d : J) (k : String) : Except PyErr String := do
  let s ← d.textAt k
  plain E s

/-- The generic `dict_to_object` of a filter: serialization.py 290-351 (with the class of the dict). -/
def readFilt (d : J) : Except PyErr Filt := do
  let a ← J.plainAt E d "attribute"
  let o ← J.plainAt E d "comparison_operator"
  let b ← d.get "bound"
  let b ← b.number
  let n ← J.plainAt E d "name"
  .ok ⟨a, o, b, n⟩

/-- Which view a class name designates: the class of the dict of a view, read by the generic `dict_to_object`.  Used for serialization.py 290-351. -/
def viewClass (s : String) : Except PyErr Bool :=
  if s = (viewCls true).full then .ok true else if s = (viewCls false).full then .ok false else .error .importError

/-- The generic `dict_to_object` of a view: serialization.py 290-351, called by blocks.py 999. -/
def readView (d : J) : Except PyErr View := do
  let c ← d.textAt "object_class"
  let c ← viewClass c
  let as ← d.textsAt "attributes"
  let as ← as.mapM (plain E)
  let n ← J.plainAt E d "name"
  .ok ⟨c, as, n⟩

/-- `WorkflowBlock.dict_to_object`: blocks.py 408-414. -/
def readInner (d : J) : Except PyErr (Inner τ α ω) := do
  let w ← d.get "workflow"
  let W ← E.wfRead w
  let n ← d.textAt "name"
  let p ← d.posAt "position"
  let (xs, ys) ← subPorts E W n
  let xs ← configureAt E d "inputs" xs
  let ys ← configureAt E d "outputs" ys
  .ok ⟨W, n, p, xs, ys⟩

/-- The selector of a block which shows a view, in the dict: blocks.py 1044-1053, 1094-1103, 1146-1155.  The block is a deprecated one when
it is a string. -/
def readShown (t : Shown) (d : J) : Except PyErr (Kind τ α ω) :=
  match d.get? "selector" with
  | some (.dict s) => do
    let r ← readRef E t.refClass (.dict s)
    let l ← d.flagAt "load_by_default"
    .ok (.display t r l)
  | some (.str s) => do
    let l ← match d.get? "load_by_default" with
      | none => .ok false
      | some l => l.flag
    .ok (.oldDisplay t s l)
  | some _ => .error .typeError
  | none => do
    let l ← match d.get? "load_by_default" with
      | none => .ok false
      | some l => l.flag
    .ok (.oldDisplay t (match t with | .cad => "cad" | .markdown => "markdown" | .plot => "plot_data") l)

/-- The name of the selector of a `MultiPlot`, in the dict: blocks.py 908-921; `none` for the deprecated class. -/
def readSelector (d : J) : Except PyErr (Option String) :=
  match d.get? "selector_name", d.get? "selector" with
  | some (.str s), _ => .ok (some s)
  | _, some (.str s) => .ok (some s)
  | _, some (.dict s) => do
    let n ← J.textAt (.dict s) "name"
    .ok (some n)
  | _, _ => .ok none

/-- The arguments which the `dict_to_object` methods of blocks.py read in a dict: 105-111, 171-181, 247-253, 314-319, 354-359, 408-414,
490-497, 547-552, 585-590, 622-627, 662-669, 905-924, 996-1003, 1041-1053, 1091-1103, 1143-1155, 1181-1186, 1226-1232, 1273-1279, 1317-1322,
1354-1359, 1390-1396, 1442-1448, 1505-1512; the deprecated classes have the generic one (serialization.py 330-351). -/
def readKind (d : J) : Tag → Except PyErr (Kind τ α ω)
  | .instantiate => do
    let c ← d.textAt "model_class"
    let c ← E.load c
    .ok (.instantiate c)
  | .classMethod => do
    let m ← d.get "method_type"
    let m ← readRef E .classMethod m
    .ok (.classMethod m)
  | .modelMethod => do
    let m ← d.get "method_type"
    let m ← readRef E .method m
    .ok (.modelMethod m)
  | .sequence => do
    let n ← d.countAt "number_arguments"
    .ok (.sequence n)
  | .concatenate => do
    let n ← d.countAt "number_arguments"
    .ok (.concatenate n)
  | .workflow => do
    let w ← d.get "workflow"
    let W ← E.wfRead w
    .ok (.workflow W)
  | .forEach => do
    let b ← d.get "workflow_block"
    let b ← readInner E b
    let i ← d.get "iter_input_index"
    let i ← i.number
    .ok (.forEach b i)
  | .unpacker => do
    let l ← d.get "indices"
    let l ← l.items
    let l ← l.mapM J.number
    .ok (.unpacker l)
  | .flatten => .ok .flatten
  | .product => do
    let n ← d.countAt "number_list"
    .ok (.product n)
  | .filter => do
    let l ← d.get "filters"
    let l ← l.items
    let l ← l.mapM (readFilt E)
    let o ← d.textAt "logical_operator"
    .ok (.filter l o)
  | .oldMultiPlot => do
    let as ← d.textsAt "attributes"
    let as ← as.mapM (plain E)
    let l ← d.flagAt "load_by_default"
    .ok (.oldMultiPlot as l)
  | .multiPlot => do
    let s ← readSelector d
    let as ← d.textsAt "attributes"
    match s with
    | some s => do
      let l ← d.flagAt "load_by_default"
      .ok (.multiPlot s as l)
    | none => do
      let l ← match d.get? "load_by_default" with
        | none => .ok false
        | some l => l.flag
      .ok (.oldMultiPlot as l)
  | .multiObject => do
    let l ← d.get "configurations"
    let l ← l.items
    let l ← l.mapM (readView E)
    let s ← d.textAt "selector_name"
    let f ← d.flagAt "load_by_default"
    .ok (.multiObject s l f)
  | .oldCad => do
    let s ← J.plainAt E d "selector"
    let l ← d.flagAt "load_by_default"
    .ok (.oldDisplay .cad s l)
  | .oldMarkdown => do
    let s ← J.plainAt E d "selector"
    let l ← d.flagAt "load_by_default"
    .ok (.oldDisplay .markdown s l)
  | .oldPlot => do
    let s ← J.plainAt E d "selector"
    let l ← d.flagAt "load_by_default"
    .ok (.oldDisplay .plot s l)
  | .cad => readShown E .cad d
  | .markdown => readShown E .markdown d
  | .plot => readShown E .plot d
  | .modelAttribute => do
    let a ← d.textAt "attribute_name"
    .ok (.modelAttribute a)
  | .getAttribute => do
    let r ← d.get "attribute_type"
    let r ← readRef E .attribute r
    .ok (.getAttribute r)
  | .setAttribute => do
    let r ← d.get "attribute_type"
    let r ← readRef E .attribute r
    .ok (.setAttribute r)
  | .sum => do
    let n ← d.countAt "number_elements"
    .ok (.sum n)
  | .substraction => .ok .substraction
  | .strings => do
    let n ← d.countAt "number_elements"
    let s ← d.textAt "separator"
    .ok (.strings n s)
  | .export => do
    let m ← d.get "method_type"
    let m ← readRef E .classMethod m
    let t ← d.flagAt "text"
    let e ← d.textAt "extension"
    let f ← d.textAt "filename"
    .ok (.export m t e f)
  | .archive => do
    let n ← d.countAt "number_exports"
    let f ← d.textAt "filename"
    .ok (.archive n f)

/-- The blocks which are not given the variables of the dict: the deprecated classes have the generic `dict_to_object`, and those which
`MultiPlot`, `CadView`, `Markdown` and `PlotData` read are returned as they are built (blocks.py 910-914, 1045-1048, 1095-1098, 1147-1150). -/
def Kind.bare : Kind τ α ω → Bool
  | .oldMultiPlot _ _ => true
  | .oldDisplay _ _ _ => true
  | _ => false

/-- The name of the block: `dict_["name"]`, by `deserialize` for the generic `dict_to_object` (serialization.py 347). -/
def readName (d : J) : Tag → Except PyErr String
  | .oldMultiPlot => J.plainAt E d "name"
  | .oldCad => J.plainAt E d "name"
  | .oldMarkdown => J.plainAt E d "name"
  | .oldPlot => J.plainAt E d "name"
  | _ => d.textAt "name"

/-- The class which a name designates.  Used for serialization.py 290-322, 330-351. -/
def Tag.ofName (s : String) : Except PyErr Tag :=
  match Tag.all.find? fun t => t.cls.full == s with
  | some t => .ok t
  | none => .error .importError

/-- `deserialize` on the dict of a block: serialization.py 290-322, 330-351 and the `dict_to_object` methods of blocks.py.  A TypeError is
followed by a second try (317-321), which fails as the first. -/
def read (d : J) : Except PyErr (Blk τ α ω) := do
  let c ← d.textAt "object_class"
  let t ← Tag.ofName c
  let k ← readKind E d t
  let n ← readName E d t
  let p ← d.posAt "position"
  let b ← construct E k n p
  if k.bare then .ok b
  else do
    let xs ← configureAt E d "inputs" b.ins
    let ys ← configureAt E d "outputs" b.outs
    .ok { b with ins := xs, outs := ys }

/-! ### Copies -/

/-- `__deepcopy__` of a reference: typings.py 33-34, 73-74.  A class method becomes a method, a view an attribute. -/
def Ref.copied (r : Ref) : Ref :=
  { r with kind := match r.kind with
    | .method | .classMethod => .method
    | _ => .attribute }

/-- `==` of filters: core.py 874-878. -/
def Filt.eq (f g : Filt) : Bool := f.attr == g.attr && f.operator == g.operator && f.bound == g.bound

/-- The copies of a list of filters: utils/copy.py 40-50, 84-94.  A filter equal to one already copied gives the same copy. -/
def copyFilters (memo : List Filt) : List Filt → List Filt
  | [] => []
  | f :: fs => match memo.find? (·.eq f) with
    | some g => g :: copyFilters memo fs
    | none => f :: copyFilters (memo ++ [f]) fs

/-- The copies of the arguments of the constructor: core.py 347-363, utils/copy.py 12-100; blocks.py 855-857, 951-953. -/
def copyKind : Kind τ α ω → Except PyErr (Kind τ α ω)
  | .classMethod m => .ok (.classMethod m.copied)
  | .modelMethod m => .ok (.modelMethod m.copied)
  | .workflow W => do
    let W ← E.wfCopy W
    .ok (.workflow W)
  | .forEach b i => do
    let W ← E.wfCopy b.flow
    let (xs, ys) ← subPorts E W b.name
    .ok (.forEach ⟨W, b.name, b.position, xs, ys⟩ i)
  | .filter fs op => .ok (.filter (copyFilters [] fs) op)
  | .display t s l => .ok (.display t s.copied l)
  | .getAttribute r => .ok (.getAttribute r.copied)
  | .setAttribute r => .ok (.setAttribute r.copied)
  | .export m t e f => .ok (.export m.copied t e f)
  | k => .ok k

/-- The deep copy of a block: core.py 347-363. -/
def copy (b : Blk τ α ω) : Except PyErr (Blk τ α ω) := do
  let k ← copyKind E b.kind
  construct E k b.name b.position

/-! ### Comparison -/

/-- The loop of `Block.equivalent` on the inputs: workflow/core.py 208-210, with `Variable.equivalent` 102-106. -/
def insEquiv [DecidableEq τ] : List (Var τ α) → List (Var τ α) → Except PyErr Bool
  | x :: xs, y :: ys => do
    let r ← varEquiv x y
    if r then insEquiv xs ys else .ok false
  | _, _ => .ok true

/-- `Block.equivalent`: workflow/core.py 202-211. -/
def baseEquiv [DecidableEq τ] (t u : Tag) (xs ys : List (Var τ α)) : Except PyErr Bool := do
  let r ← insEquiv xs ys
  .ok (r && t.name == u.name)

/-- `==` of views, `_data_eq`: core.py 116-134; the names are not compared. -/
def View.eq (v w : View) : Bool := v.scatter == w.scatter && v.attributes == w.attributes

/-- `==` of lists.  Used for workflow/core.py 202-211. -/
def listEq {β : Type} (f : β → β → Bool) : List β → List β → Bool
  | [], [] => true
  | x :: xs, y :: ys => f x y && listEq f xs ys
  | _, _ => false

/-- The class and the name of the reference in the attribute `method_type` of a block: AttributeError without it.
Used for workflow/core.py 202-211. -/
def Kind.methodType : Kind τ α ω → Except PyErr Ref
  | .classMethod m => .ok m
  | .modelMethod m => .ok m
  | .export m _ _ _ => .ok m
  | _ => .error .attributeError

/-- The reference in the attribute `attribute_type`.  Used for workflow/core.py 202-211. -/
def Kind.attributeType : Kind τ α ω → Except PyErr Ref
  | .getAttribute r => .ok r
  | .setAttribute r => .ok r
  | _ => .error .attributeError

/-- The attribute `attributes`.  Used for workflow/core.py 202-211. -/
def Kind.attrs : Kind τ α ω → Except PyErr (List String)
  | .oldMultiPlot as _ => .ok as
  | .multiPlot _ as _ => .ok as
  | _ => .error .attributeError

/-- `super().equivalent(other) and rest`, for a comparison of attributes which is only made when the classes agree.
Used for workflow/core.py 202-211. -/
def thenSame [DecidableEq τ] (b c : Blk τ α ω) (rest : Bool) : Except PyErr Bool := do
  let r ← baseEquiv b.kind.tag c.kind.tag b.ins c.ins
  .ok (r && rest)

/-- `WorkflowBlock.equivalent` on the block of a `ForEach`: blocks.py 402-406. -/
def innerEquiv [DecidableEq τ] (d d' : Inner τ α ω) : Except PyErr Bool := do
  let q ← baseEquiv .workflow .workflow d.ins d'.ins
  if q then E.wfEq d.flow d'.flow else .ok false

/-- `equivalent` of the classes of blocks.py: 99-103, 163-169, 239-245, 310-312, 350-352, 402-406, 484-488, 543-545, 618-620, 658-660, 794-797,
859-862, 955-958, 1177-1179, 1218-1224, 1269-1271, 1313-1315, 1384-1388, and the one of the base class (workflow/core.py 202-211) for the
others.  What is read of the other block before the comparison of the base class may raise an AttributeError. -/
def equivalent [DecidableEq τ] (b c : Blk τ α ω) : Except PyErr Bool :=
  match b.kind with
  | .instantiate m => match c.kind with
    | .instantiate m' => thenSame b c (E.metaName m == E.metaName m')
    | _ => .error .attributeError
  | .classMethod m => do
    let m' ← c.kind.methodType
    thenSame b c (m.cls.name == m'.cls.name && m.name == m'.name)
  | .modelMethod m => do
    let m' ← c.kind.methodType
    thenSame b c (m.cls.name == m'.cls.name && m.name == m'.name)
  | .sequence n => thenSame b c (match c.kind with | .sequence n' => n == n' | _ => false)
  | .concatenate n => thenSame b c (match c.kind with | .concatenate n' => n == n' | _ => false)
  | .workflow W => do
    let r ← baseEquiv b.kind.tag c.kind.tag b.ins c.ins
    match r, c.kind with
    | true, .workflow W' => E.wfEq W W'
    | _, _ => .ok false
  | .forEach d i => match c.kind with
    | .forEach d' i' => do
      let q ← innerEquiv E d d'
      thenSame b c (q && i == i')
    | _ => .error .attributeError
  | .unpacker l => thenSame b c (match c.kind with | .unpacker l' => l == l' | _ => false)
  | .product n => thenSame b c (match c.kind with | .product n' => n == n' | _ => false)
  | .filter fs _ => thenSame b c (match c.kind with | .filter fs' _ => listEq Filt.eq fs fs' | _ => false)
  | .oldMultiPlot as _ => do
    let as' ← c.kind.attrs
    thenSame b c (as == as')
  | .multiPlot _ as _ => do
    let as' ← c.kind.attrs
    thenSame b c (as == as')
  | .multiObject _ vs _ => match c.kind with
    | .multiObject _ vs' _ => thenSame b c (listEq View.eq vs vs')
    | _ => .error .attributeError
  | .modelAttribute a => thenSame b c (match c.kind with | .modelAttribute a' => a == a' | _ => false)
  | .getAttribute r => do
    let r' ← c.kind.attributeType
    thenSame b c (r.cls.name == r'.cls.name && r.name == r'.name)
  | .setAttribute r => thenSame b c (match c.kind with | .setAttribute r' => r.name == r'.name | _ => false)
  | .sum n => thenSame b c (match c.kind with | .sum n' => n == n' | _ => false)
  | .strings n s => match c.kind with
    | .strings n' s' => thenSame b c (n == n' && s == s')
    | _ => .error .attributeError
  | .flatten => thenSame b c true
  | .oldDisplay _ _ _ => thenSame b c true
  | .display _ _ _ => thenSame b c true
  | .substraction => thenSame b c true
  | .export _ _ _ _ => thenSame b c true
  | .archive _ _ => thenSame b c true

/-! ### Hashes -/

/-- The number of locked variables: workflow/core.py 200. -/
def lockedOf (xs : List (Var τ α)) : Except PyErr Nat := do
  let l ← xs.mapM Var.locked
  .ok (l.count true)

/-- `hash` of a filter: core.py 868-872. -/
def Filt.hash (f : Filt) : Int := f.attr.length + E.hashS f.operator + E.hashN f.bound

/-- `Block.equivalent_hash`: workflow/core.py 194-200. -/
def baseHash (b : Blk τ α ω) : Except PyErr Int := do
  let n ← lockedOf b.ins
  .ok (b.kind.tag.name.length + 7 * n)

/-- `equivalent_hash` of the classes of blocks.py: 95-97, 158-161, 234-237, 306-308, 346-348, 398-400, 479-482, 554-556, 581-583, 614-616,
671-674, 799-801, 864-866, 960-962, 1173-1175, 1213-1216, 1265-1267, 1309-1311, 1380-1382, and the one of the base class.  The remainders by
`10e5` are those of integers. -/
def equivalentHash (b : Blk τ α ω) : Except PyErr Int :=
  match b.kind with
  | .instantiate m => .ok m.name.length
  | .classMethod m => .ok (m.cls.name.length + 7 * m.name.length)
  | .modelMethod m => .ok (m.cls.name.length + 7 * m.name.length)
  | .sequence n => .ok n
  | .concatenate n => .ok n
  | .workflow W => E.wfHash W
  | .forEach d i => do
    let h ← E.wfHash d.flow
    .ok (h % 1000000 + i)
  | .unpacker l => .ok l.length
  | .flatten => .ok 1
  | .product n => .ok n
  | .filter fs _ => .ok ((fs.map (Filt.hash E)).sum % 1000000)
  | .oldMultiPlot as _ => .ok (as.map fun a => (a.length : Int)).sum
  | .multiPlot _ as _ => .ok (as.map fun a => (a.length : Int)).sum
  | .multiObject _ vs _ => .ok (vs.map E.hashV).sum
  | .modelAttribute a => .ok a.length
  | .getAttribute r => .ok (r.cls.name.length + 7 * r.name.length)
  | .setAttribute r => .ok (3 + r.name.length)
  | .sum n => .ok n
  | .strings n s => .ok (n + E.hashS s)
  | .oldDisplay _ _ _ => baseHash b
  | .display _ _ _ => baseHash b
  | .substraction => baseHash b
  | .export _ _ _ _ => baseHash b
  | .archive _ _ => baseHash b

/-! ### Scripts -/

/-- An argument in the declaration of a block.  Used for workflow/core.py 228-230. -/
inductive Arg where
  /-- a name -/
  | name (x : String)
  /-- a text between double (`true`) or single quotes -/
  | text (double : Bool) (s : String)
  /-- the written form of strings in a list, of integers in a list, of an integer, of a boolean, of a position -/
  | strs (l : List String)
  | ints (l : List Int)
  | int (i : Int)
  | bool (b : Bool)
  | pos (p : Int × Int)
  /-- `F(C, 'name')`, with double quotes (`true`) or single ones -/
  | ref (f c : String) (double : Bool) (name : String)
  /-- a list of views: the class, the brackets and the texts between the quotes, the name -/
  | views (l : List (String × Bool × List String × String))

/-- The declaration of a block: the class which is called and its named arguments.
Used for what the `_to_script` methods write, blocks.py 131-1533. -/
structure Decl where
  callee : String
  args : List (String × Arg)

/-- `base_script`: workflow/core.py 228-230. -/
def baseArgs (b : Blk τ α ω) : List (String × Arg) := [("name", .text true b.name), ("position", .pos b.position)]

/-- `Display.base_script`: blocks.py 758-760. -/
def displayArgs (b : Blk τ α ω) (load : Bool) : List (String × Arg) :=
  [("name", .text true b.name), ("load_by_default", .bool load), ("position", .pos b.position)]

/-- The parts between the quotes of `'a', 'b'`: `', '.join`, of no attribute, is one empty text.  blocks.py 1563, 1578. -/
def quoted : List String → List String
  | [] => [""]
  | l => l

/-- The `_to_script` methods of blocks.py, for the blocks without other blocks: the declaration and the classes imported; 131-136, 197-206,
279-288, 325-328, 366-369, 562-565, 599-602, 635-638, 681-690, 762-771, 827-830, 892-895, 978-986, 1192-1195, 1238-1246, 1287-1292, 1332-1335,
1349-1352, 1403-1408, 1466-1475, 1531-1534, 1562-1564, 1577-1579.  The list of a `Filter` is not closed (686).  `'{attributes}'` in round
brackets is one text when it holds one attribute (1564).  Used for what the `_to_script` methods write, blocks.py 131-1533. -/
def toScript (b : Blk τ α ω) : Except PyErr (Decl × List Cls) :=
  match b.kind with
  | .instantiate c => .ok (⟨"InstantiateModel", ("model_class", .name c.name) :: baseArgs b⟩, [c, b.kind.tag.cls])
  | .classMethod m => .ok (⟨"ClassMethod", ("method_type", .ref "ClassMethodType" m.cls.name false m.name) :: baseArgs b⟩,
      [m.kind.cls, m.cls, b.kind.tag.cls])
  | .modelMethod m => .ok (⟨"ModelMethod", ("method_type", .ref "MethodType" m.cls.name false m.name) :: baseArgs b⟩,
      [m.kind.cls, m.cls, b.kind.tag.cls])
  | .sequence _ => .ok (⟨"Sequence", ("number_arguments", .int b.ins.length) :: baseArgs b⟩, [b.kind.tag.cls])
  | .concatenate _ => .ok (⟨"Concatenate", ("number_arguments", .int b.ins.length) :: baseArgs b⟩, [b.kind.tag.cls])
  | .workflow _ => .error .notImplemented
  | .forEach _ _ => .error .notImplemented
  | .unpacker l => .ok (⟨"Unpacker", ("indices", .ints l) :: baseArgs b⟩, [b.kind.tag.cls])
  | .flatten => .ok (⟨"Flatten", baseArgs b⟩, [b.kind.tag.cls])
  | .product n => .ok (⟨"Product", ("number_list", .int n) :: baseArgs b⟩, [b.kind.tag.cls])
  | .filter _ _ => .error .syntaxError
  | .oldMultiPlot as l => .ok (⟨"MultiPlot", ("attributes", .strs as) :: displayArgs b l⟩, [b.kind.tag.cls])
  | .multiPlot s as l => .ok (⟨"MultiPlot", ("selector_name", .text false s) :: ("attributes", .strs as) :: displayArgs b l⟩, [b.kind.tag.cls])
  | .multiObject s vs l => .ok (⟨"MultiObject", ("selector_name", .text false s) ::
      ("configurations", .views (vs.map fun v => ((viewCls v.scatter).name, v.scatter, quoted v.attributes, v.name))) :: displayArgs b l⟩,
      vs.map (fun v => viewCls v.scatter) ++ [b.kind.tag.cls])
  | .oldDisplay _ _ _ => .error .attributeError
  | .display _ s l => .ok (⟨b.kind.tag.name, ("selector", .ref s.kind.name s.cls.name false s.name) :: displayArgs b l⟩,
      [b.kind.tag.cls, s.cls, s.kind.cls])
  | .modelAttribute a => .ok (⟨"ModelAttribute", ("attribute_name", .text false a) :: baseArgs b⟩, [b.kind.tag.cls])
  | .getAttribute r => .ok (⟨"GetModelAttribute", ("attribute_type", .ref "AttributeType" r.cls.name true r.name) :: baseArgs b⟩,
      [r.kind.cls, r.cls, b.kind.tag.cls])
  | .setAttribute r => .ok (⟨"SetModelAttribute", ("attribute_type", .ref "AttributeType" r.cls.name true r.name) :: baseArgs b⟩,
      [b.kind.tag.cls])
  | .sum n => .ok (⟨"Sum", ("number_elements", .int n) :: baseArgs b⟩, [b.kind.tag.cls])
  | .substraction => .ok (⟨"Substraction", baseArgs b⟩, [b.kind.tag.cls])
  | .strings n s => .ok (⟨"ConcatenateStrings", [("number_elements", .int n), ("separator", .text false s), ("name", .text false b.name)]⟩,
      [b.kind.tag.cls])
  | .export m t e f => .ok (⟨"Export", ("method_type", .ref "MethodType" m.cls.name false m.name) :: ("filename", .text false f) ::
      ("extension", .text false e) :: ("text", .bool t) :: baseArgs b⟩, [b.kind.tag.cls, m.kind.cls, m.cls])
  | .archive n f => .ok (⟨"Archive", ("number_exports", .int n) :: ("filename", .text false f) :: baseArgs b⟩, [b.kind.tag.cls])

/-! ### What a declaration builds, run by Python -/

/-- The class which a name stands for after the imports: the last one imported.  Used for blocks.py 1553-1554. -/
def nameOf (imports : List Cls) (x : String) : Except PyErr Cls :=
  match imports.reverse.find? fun c => c.name == x with
  | some c => .ok c
  | none => .error .nameError

/-- The value of an argument.  Used for what the `_to_script` methods write, blocks.py 131-1533. -/
inductive PVal where
  | cls (c : Cls)
  | str (s : String)
  | strs (l : List String)
  | ints (l : List Int)
  | int (i : Int)
  | bool (b : Bool)
  | pos (p : Int × Int)
  | ref (r : Ref)
  | views (l : List View)

/-- The class of references which a class is.  Used for what the `_to_script` methods write, blocks.py 131-1533. -/
def refOf (c : Cls) : Except PyErr RefClass :=
  match [RefClass.method, .classMethod, .attribute, .cad, .markdown, .plot].find? fun r => r.cls == c with
  | some r => .ok r
  | none => .error .typeError

/-- The class of blocks which a class is.  Used for what the `_to_script` methods write, blocks.py 131-1533. -/
def tagOf (c : Cls) : Except PyErr Tag :=
  match Tag.all.find? fun t => t.cls == c with
  | some t => .ok t
  | none => .error .typeError

/-- The call of the constructor of a view.  `ScatterView` makes a list of what it is given: of the letters, for a text (blocks.py 1553-1554);
a text in round brackets is no tuple. -/
def viewOf (imports : List Cls) (v : String × Bool × List String × String) : Except PyErr View := do
  let c ← nameOf imports v.1
  let as ← v.2.2.1.mapM (E.lit false)
  let n ← E.lit false v.2.2.2
  if c = viewCls true then
    match v.2.1, as with
    | true, [s] => .ok ⟨true, s.toList.map fun x => String.ofList [x], n⟩
    | _, as => .ok ⟨true, as, n⟩
  else if c = viewCls false then .ok ⟨false, as, n⟩
  else .error .typeError

/-- The value of an argument, in a process which has imported some classes.  Used for what the `_to_script` methods write, blocks.py 131-1533. -/
def argVal (imports : List Cls) : Arg → Except PyErr PVal
  | .name x => do
    let c ← nameOf imports x
    .ok (.cls c)
  | .text d s => do
    let s ← E.lit d s
    .ok (.str s)
  | .strs l => .ok (.strs l)
  | .ints l => .ok (.ints l)
  | .int i => .ok (.int i)
  | .bool b => .ok (.bool b)
  | .pos p => .ok (.pos p)
  | .ref f c d n => do
    let f ← nameOf imports f
    let f ← refOf f
    let c ← nameOf imports c
    let n ← E.lit d n
    .ok (.ref ⟨f, c, n⟩)
  | .views l => do
    let l ← l.mapM (viewOf E imports)
    .ok (.views l)

/-- The values of the named arguments, in order.  Used for what the `_to_script` methods write, blocks.py 131-1533. -/
def argVals (imports : List Cls) : List (String × Arg) → Except PyErr (List (String × PVal))
  | [] => .ok []
  | (k, a) :: rest => do
    let v ← argVal E imports a
    let vs ← argVals imports rest
    .ok ((k, v) :: vs)

/-- An argument of the constructor which has no default value: a TypeError when it is missing.
Used for what the `_to_script` methods write, blocks.py 131-1533. -/
def needed (vs : List (String × PVal)) (k : String) : Except PyErr PVal :=
  match vs.lookup k with
  | some v => .ok v
  | none => .error .typeError

/-- The argument as a class.  Used for what the `_to_script` methods write, blocks.py 131-1533. -/
def PVal.cls! : PVal → Except PyErr Cls
  | .cls c => .ok c
  | _ => .error .typeError

/-- The argument as a reference.  Used for what the `_to_script` methods write, blocks.py 131-1533. -/
def PVal.ref! : PVal → Except PyErr Ref
  | .ref r => .ok r
  | _ => .error .typeError

/-- The argument as a string.  Used for what the `_to_script` methods write, blocks.py 131-1533. -/
def PVal.str! : PVal → Except PyErr String
  | .str s => .ok s
  | _ => .error .typeError

/-- The argument as a list of strings.  Used for what the `_to_script` methods write, blocks.py 131-1533. -/
def PVal.strs! : PVal → Except PyErr (List String)
  | .strs l => .ok l
  | _ => .error .typeError

/-- The argument as a list of integers.  Used for what the `_to_script` methods write, blocks.py 131-1533. -/
def PVal.ints! : PVal → Except PyErr (List Int)
  | .ints l => .ok l
  | _ => .error .typeError

/-- The argument as a number of ports.  Used for what the `_to_script` methods write, blocks.py 131-1533. -/
def PVal.count! : PVal → Except PyErr Nat
  | .int i => .ok i.toNat
  | _ => .error .typeError

/-- The argument as a boolean.  Used for what the `_to_script` methods write, blocks.py 131-1533. -/
def PVal.bool! : PVal → Except PyErr Bool
  | .bool b => .ok b
  | _ => .error .typeError

/-- The argument as a list of views.  Used for what the `_to_script` methods write, blocks.py 131-1533. -/
def PVal.views! : PVal → Except PyErr (List View)
  | .views l => .ok l
  | _ => .error .typeError

/-- The names of the arguments of the constructors: the `__init__` methods of blocks.py, `self` left out.  blocks.py 89-1487. -/
def params : Tag → List String
  | .instantiate => ["model_class", "name", "position"]
  | .classMethod => ["method_type", "name", "position"]
  | .modelMethod => ["method_type", "name", "position"]
  | .sequence => ["number_arguments", "name", "position"]
  | .concatenate => ["number_arguments", "name", "position"]
  | .workflow => ["workflow", "name", "position"]
  | .forEach => ["workflow_block", "iter_input_index", "name", "position"]
  | .unpacker => ["indices", "name", "position"]
  | .flatten => ["name", "position"]
  | .product => ["number_list", "name", "position"]
  | .filter => ["filters", "logical_operator", "name", "position"]
  | .oldMultiPlot => ["attributes", "load_by_default", "name", "position"]
  | .multiPlot => ["selector_name", "attributes", "load_by_default", "name", "position"]
  | .multiObject => ["selector_name", "configurations", "load_by_default", "name", "position"]
  | .oldCad => ["name", "load_by_default", "selector", "position"]
  | .oldMarkdown => ["name", "load_by_default", "selector", "position"]
  | .oldPlot => ["name", "load_by_default", "selector", "position"]
  | .cad => ["selector", "name", "load_by_default", "position"]
  | .markdown => ["selector", "name", "load_by_default", "position"]
  | .plot => ["selector", "name", "load_by_default", "position"]
  | .modelAttribute => ["attribute_name", "name", "position"]
  | .getAttribute => ["attribute_type", "name", "position"]
  | .setAttribute => ["attribute_type", "name", "position"]
  | .sum => ["number_elements", "name", "position"]
  | .substraction => ["name", "position"]
  | .strings => ["number_elements", "separator", "name", "position"]
  | .export => ["method_type", "text", "extension", "filename", "name", "position"]
  | .archive => ["number_exports", "filename", "name", "position"]

/-- The block class and the arguments which a call gives to a constructor.  Simplification: the default values of arguments besides `name`
and `position`, which all scripts give, are left out.  Used for what the `_to_script` methods write, blocks.py 131-1533. -/
def callKind (vs : List (String × PVal)) : Tag → Except PyErr (Kind τ α ω)
  | .instantiate => do
    let c ← needed vs "model_class"
    let c ← c.cls!
    .ok (.instantiate c)
  | .classMethod => do
    let m ← needed vs "method_type"
    let m ← m.ref!
    .ok (.classMethod m)
  | .modelMethod => do
    let m ← needed vs "method_type"
    let m ← m.ref!
    .ok (.modelMethod m)
  | .sequence => do
    let n ← needed vs "number_arguments"
    let n ← n.count!
    .ok (.sequence n)
  | .concatenate => do
    let n ← needed vs "number_arguments"
    let n ← n.count!
    .ok (.concatenate n)
  | .unpacker => do
    let l ← needed vs "indices"
    let l ← l.ints!
    .ok (.unpacker l)
  | .flatten => .ok .flatten
  | .product => do
    let n ← needed vs "number_list"
    let n ← n.count!
    .ok (.product n)
  | .oldMultiPlot => do
    let as ← needed vs "attributes"
    let as ← as.strs!
    let l ← needed vs "load_by_default"
    let l ← l.bool!
    .ok (.oldMultiPlot as l)
  | .multiPlot => do
    let s ← needed vs "selector_name"
    let s ← s.str!
    let as ← needed vs "attributes"
    let as ← as.strs!
    let l ← needed vs "load_by_default"
    let l ← l.bool!
    .ok (.multiPlot s as l)
  | .multiObject => do
    let s ← needed vs "selector_name"
    let s ← s.str!
    let ws ← needed vs "configurations"
    let ws ← ws.views!
    let l ← needed vs "load_by_default"
    let l ← l.bool!
    .ok (.multiObject s ws l)
  | .cad => do
    let s ← needed vs "selector"
    let s ← s.ref!
    let l ← needed vs "load_by_default"
    let l ← l.bool!
    .ok (.display .cad s l)
  | .markdown => do
    let s ← needed vs "selector"
    let s ← s.ref!
    let l ← needed vs "load_by_default"
    let l ← l.bool!
    .ok (.display .markdown s l)
  | .plot => do
    let s ← needed vs "selector"
    let s ← s.ref!
    let l ← needed vs "load_by_default"
    let l ← l.bool!
    .ok (.display .plot s l)
  | .modelAttribute => do
    let a ← needed vs "attribute_name"
    let a ← a.str!
    .ok (.modelAttribute a)
  | .getAttribute => do
    let r ← needed vs "attribute_type"
    let r ← r.ref!
    .ok (.getAttribute r)
  | .setAttribute => do
    let r ← needed vs "attribute_type"
    let r ← r.ref!
    .ok (.setAttribute r)
  | .sum => do
    let n ← needed vs "number_elements"
    let n ← n.count!
    .ok (.sum n)
  | .substraction => .ok .substraction
  | .strings => do
    let n ← needed vs "number_elements"
    let n ← n.count!
    let s ← needed vs "separator"
    let s ← s.str!
    .ok (.strings n s)
  | .export => do
    let m ← needed vs "method_type"
    let m ← m.ref!
    let t ← needed vs "text"
    let t ← t.bool!
    let e ← needed vs "extension"
    let e ← e.str!
    let f ← needed vs "filename"
    let f ← f.str!
    .ok (.export m t e f)
  | .archive => do
    let n ← needed vs "number_exports"
    let n ← n.count!
    let f ← needed vs "filename"
    let f ← f.str!
    .ok (.archive n f)
  | _ => .error .notImplemented

/-- The position of a call: `(0, 0)` when it is not given.  Used for what the `_to_script` methods write, blocks.py 131-1533. -/
def callPos (vs : List (String × PVal)) : Except PyErr (Int × Int) :=
  match vs.lookup "position" with
  | none => .ok (0, 0)
  | some (.pos p) => .ok p
  | some _ => .error .typeError

/-- A declaration, run after the imports: the names are looked up, the arguments which are no parameters raise a TypeError, the constructor
is called.  Used for what the `_to_script` methods write, blocks.py 131-1533. -/
def run (imports : List Cls) (d : Decl) : Except PyErr (Blk τ α ω) := do
  let c ← nameOf imports d.callee
  let t ← tagOf c
  let vs ← argVals E imports d.args
  if vs.all fun kv => (params t).contains kv.1 then do
    let k ← callKind vs t
    let n ← needed vs "name"
    let n ← n.str!
    let p ← callPos vs
    construct E k n p
  else .error .typeError

/-! ### Evaluation -/

/-- What blocks call when they are evaluated.  Used for blocks.py 113-1523. -/
structure Host (α ω : Type) where
  /-- the call of a class, of a class method, of a method, with named arguments -/
  new : Cls → List (String × α) → Except PyErr α
  classCall : Cls → String → List (String × α) → Except PyErr α
  call : α → String → List (String × α) → Except PyErr α
  /-- the number zero -/
  zero : α
  /-- lists: made of values, joined, subscripted, flattened, multiplied -/
  pack : List α → α
  concat : List α → Except PyErr α
  item : α → Int → Except PyErr α
  flatten : α → Except PyErr α
  product : List α → Except PyErr α
  /-- the run of a workflow with its input values, and on each element of the value of an input -/
  runFlow : ω → List α → Except PyErr α
  runEach : ω → Int → List α → Except PyErr α
  /-- the elements kept by filters and a logical operator -/
  select : List (String × String × Int) → String → α → Except PyErr α
  /-- the plot of the attributes of objects, the one of views of objects, the display of an object by a selector -/
  multiplot : List String → α → Except PyErr α
  multiview : List View → α → Except PyErr α
  «show» : α → String → Except PyErr α
  /-- attributes of an object -/
  attr : α → String → Except PyErr α
  setAttr : α → String → α → Except PyErr α
  /-- the difference of two values, strings joined by a separator -/
  sub : α → α → Except PyErr α
  join : String → List α → Except PyErr α
  /-- the stream which a method writes, given the name of the file, the extension and whether it is a text -/
  stream : α → String → α → String → Bool → Except PyErr α
  /-- the archive of some streams -/
  zip : List α → α → Except PyErr α

/-- The named arguments of a call: blocks.py 115, 185, 257. -/
def named (xs : List (Var τ α)) (vs : List α) : List (String × α) := (xs.zip vs).map fun p => (p.1.name, p.2)

/-- `evaluate` of the classes of blocks.py: 113-116, 183-186, 255-264, 321-323, 361-364, 416-420, 499-507, 558-560, 592-597, 629-633, 676-679,
723-741, 803-825, 868-890, 964-976, 1188-1190, 1234-1236, 1281-1285, 1324-1330, 1345-1347, 1398-1401, 1450-1458, 1514-1523, given the values
of its inputs, in order.  The sum is that of a dictionary of variables, and the selector of a deprecated display has no name: both raise
(see Workflow/Blocks.lean for what the others compute). -/
def evaluate (H : Host α ω) (b : Blk τ α ω) (vs : List α) : Except PyErr (List α) :=
  match b.kind, vs with
  | .instantiate c, vs => do
    let r ← H.new c (named b.ins vs)
    .ok [r]
  | .classMethod m, vs => do
    let r ← H.classCall m.cls m.name (named b.ins vs)
    .ok [r]
  | .modelMethod m, v :: vs => do
    let r ← H.call v m.name (named b.ins.tail vs)
    .ok [r, v]
  | .sequence _, vs => .ok [H.pack vs]
  | .concatenate _, vs => do
    let r ← H.concat vs
    .ok [r]
  | .workflow W, vs => do
    let r ← H.runFlow W vs
    .ok [r]
  | .forEach d i, vs => do
    let r ← H.runEach d.flow i vs
    .ok [r]
  | .unpacker l, [v] => l.mapM (H.item v)
  | .flatten, [v] => do
    let r ← H.flatten v
    .ok [r]
  | .product _, vs => do
    let r ← H.product vs
    .ok [r]
  | .filter fs op, [v] => do
    let r ← H.select (fs.map fun f => (f.attr, f.operator, f.bound)) op v
    .ok [r]
  | .oldMultiPlot as _, [v] => do
    let r ← H.multiplot as v
    .ok [r]
  | .multiPlot _ as _, [v] => do
    let r ← H.multiplot as v
    .ok [r]
  | .multiObject _ ws _, [v] => do
    let r ← H.multiview ws v
    .ok [r]
  | .oldDisplay _ _ _, [_] => .error .attributeError
  | .display _ s _, [v] => do
    let r ← H.show v s.name
    .ok [r]
  | .modelAttribute a, [v] => do
    let r ← H.attr v a
    .ok [r]
  | .getAttribute s, [v] => do
    let r ← H.attr v s.name
    .ok [r]
  | .setAttribute s, [v, w] => do
    let r ← H.setAttr v s.name w
    .ok [r]
  | .sum _, [] => .ok [H.zero]
  | .sum _, _ => .error .typeError
  | .substraction, [v, w] => do
    let r ← H.sub v w
    .ok [r]
  | .strings _ s, vs => do
    let r ← H.join s vs
    .ok [r]
  | .export m t e _, [v, f] => do
    let r ← H.stream v m.name f e t
    .ok [r]
  | .archive _ _, vs => match vs.getLast? with
    | some f => do
      let r ← H.zip vs.dropLast f
      .ok [r]
    | none => .error .indexError
  | _, _ => .error .keyError

end DC.Cat
