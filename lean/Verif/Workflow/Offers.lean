import Verif.Workflow.Display
import Verif.Views.Model
/-
The displays and exports which a run offers by their selectors.
Source: dessia_common/workflow/core.py 650-665, 679-689, 1884-1890, 2093-2125, 2182-2198, 2281-2299, workflow/blocks.py 716-721,
1460-1464, 1525-1529, core.py 432-460, 617-632.
-/
namespace DC.Wkf

open DC.Txt (Display displayFromSelector)
open DC.View (Content Data Shown serialized mkShown)

variable {α : Type}

/-- What the settings of a block need besides its face.  For a display: whether its selector is a view (the selector of a deprecated
display is a text or None), `serialize` and `load_by_default`: blocks.py 700-721.  For an export: `text` and `filename`: blocks.py 1430,
1494-1497. -/
structure Look where
  viewed : Bool := true
  serialize : Bool := false
  load : Bool := false
  text : Bool := false
  filename : String := "export"

/-! ### Displays -/

/-- `type_` of a display: blocks.py 709-714. -/
def displayType (f : Face) : String :=
  match f.role with
  | .display t _ _ => t
  | _ => ""

/-- The text of a reference path: workflow/core.py 655, 659. -/
def referenceText : Option Nat → String
  | none => "#"
  | some j => "#/values/" ++ toString j

/-- The name of the method which shows a block: blocks.py 719. -/
def displayMethod : String := "block_display"

/-- The name of the method which shows the documentation: workflow/core.py 2191. -/
def markdownMethod : String := "to_markdown"

/-- The arguments of a setting of a block: blocks.py 718. -/
def displayArguments (i : Nat) (path : String) : List (String × V) := [("block_index", .int i), ("reference_path", .str path)]

/-- The settings of a display block: workflow/core.py 654-664, blocks.py 716-721.  `self.selector.name` of a text or of None is an
AttributeError. -/
def blockSetting (W : Workflow α) (F : Nat → Face) (L : Nat → Look) (i : Nat) : Except PyErr Display :=
  match referencePipe W F i with
  | .error e => .error e
  | .ok j => if (L i).viewed then
      .ok (Display.init (some (blockSelector F i)) (displayType (F i)) displayMethod (some (displayArguments i (referenceText j)))
        (L i).serialize (L i).load)
    else .error .attributeError

/-- The loop of `blocks_display_settings`: workflow/core.py 654-665. -/
def settingsLoop (W : Workflow α) (F : Nat → Face) (L : Nat → Look) : List Nat → Except PyErr (List Display)
  | [] => .ok []
  | i :: l => match blockSetting W F L i with
    | .error e => .error e
    | .ok d => match settingsLoop W F L l with
      | .error e => .error e
      | .ok ds => .ok (d :: ds)

/-- `blocks_display_settings`: workflow/core.py 650-665. -/
def blocksSettings (W : Workflow α) (F : Nat → Face) (L : Nat → Look) : Except PyErr (List Display) :=
  settingsLoop W F L (displayBlocks W F)

/-- The setting of the documentation of a run: workflow/core.py 2190-2193. -/
def documentation (ss : List Display) : Display :=
  Display.init (some "Documentation") "markdown" markdownMethod none false (!ss.any (·.loadByDefault))

/-- `WorkflowRun.display_settings`: workflow/core.py 2182-2194. -/
def runSettings (W : Workflow α) (F : Nat → Face) (L : Nat → Look) : Except PyErr (List Display) :=
  match blocksSettings W F L with
  | .error e => .error e
  | .ok ss => .ok (documentation ss :: ss)

/-- `WorkflowState.display_settings`: workflow/core.py 1884-1890. -/
def stateSettings (W : Workflow α) (F : Nat → Face) (L : Nat → Look) : Except PyErr (List Display) :=
  match blocksSettings W F L with
  | .error e => .error e
  | .ok ss => .ok (Display.init (some "workflow_state") "workflow_state" "state_display" none false false :: ss)

/-- What the displays of a run are computed from: the workflow, its order of sets, the faces and looks of its blocks, the branches, and
`to_markdown` of the run.  Used for core.py 437. -/
structure Stage (α : Type) where
  W : Workflow α
  so : SetOrder
  F : Nat → Face
  L : Nat → Look
  vw : Views
  doc : St α → Except PyErr α
  data : Data α

/-- `attrmethod_getter(self, method)(**arguments)` on a run: core.py 437, workflow/core.py 1892-1913, 2267-2279. -/
def Stage.call (S : Stage α) (s : St α) (d : Display) : Except PyErr (St α × α) :=
  if d.method = displayMethod then
    match d.arguments.lookup "block_index" with
    | some (.int k) => blockDisplay S.W S.so S.F S.vw s k.toNat
    | _ => .error .typeError
  else if d.method = markdownMethod then
    match S.doc s with
    | .error e => .error e
    | .ok x => .ok (s, x)
  else .error .attributeError

/-- The display of a setting of a run: core.py 435-444.  Simplification: the blocks evaluated before a failure are not kept in the
state. -/
def Stage.shows (S : Stage α) (s : St α) (d : Display) : Except PyErr (St α × Shown α) :=
  match S.call s d with
  | .ok (s', y) => match serialized S.data d (some y) with
    | .error e => .error e
    | .ok x => match mkShown S.data d.type x d.referencePath false with
      | .error e => .error e
      | .ok r => .ok (s', r)
  | .error _ => .ok (s, ⟨d.type, none, d.referencePath, true⟩)

/-- `_display_from_selector` on a run: core.py 432-444, workflow/core.py 2196-2198. -/
def Stage.display (S : Stage α) (s : St α) (selector : String) : Except PyErr (St α × Shown α) :=
  match runSettings S.W S.F S.L with
  | .error e => .error e
  | .ok ss => match displayFromSelector ss (some selector) with
    | .error e => .error e
    | .ok d => S.shows s d

/-- The loop of `_displays` on a run: core.py 457-459. -/
def Stage.displaysLoop (S : Stage α) : List Display → St α → Except PyErr (St α × List (Shown α))
  | [], s => .ok (s, [])
  | d :: ds, s => match S.display s (d.selector.getD "") with
    | .error e => .error e
    | .ok (s', x) => match S.displaysLoop ds s' with
      | .error e => .error e
      | .ok (t, xs) => .ok (t, x :: xs)

/-- `_displays` on a run: core.py 454-460. -/
def Stage.displays (S : Stage α) (s : St α) : Except PyErr (St α × List (Shown α)) :=
  match runSettings S.W S.F S.L with
  | .error e => .error e
  | .ok ss => S.displaysLoop ss s

/-- How a method is defined: on the class, or on its instances.  Used for core.py 450. -/
inductive Defined | onClass | onInstance

/-- `cls.display_settings()`: core.py 450.  A method of the instances lacks its first argument: TypeError. -/
def settingsOnClass (how : Defined) (settings : Except PyErr (List Display)) : Except PyErr (List Display) :=
  match how with
  | .onClass => settings
  | .onInstance => .error .typeError

/-- `_display_from_selector` on a state which is not a run: core.py 432-452, workflow/core.py 1884.  Its settings are looked for on its
class; only ValueError is caught. -/
def Stage.stateDisplay (S : Stage α) (s : St α) (selector : String) : Except PyErr (St α × Shown α) :=
  match settingsOnClass .onInstance (stateSettings S.W S.F S.L) with
  | .error e => .error e
  | .ok ss => match displayFromSelector ss (some selector) with
    | .error e => .error e
    | .ok d => S.shows s d

/-! ### Exports -/

/-- `ExportFormat` with its name and its arguments (`block`): exports.py 37-58. -/
structure Offer where
  selector : String
  extension : String
  method : String
  text : Bool
  name : String := ""
  block : Option Nat := none
deriving DecidableEq, Repr

/-- `extension` of an export block: blocks.py 1436, 1495. -/
def exportExtension (f : Face) : String :=
  match f.role with
  | .export e => e
  | _ => ""

/-- The format of an export block: workflow/core.py 684-688, blocks.py 1460-1464, 1525-1529. -/
def blockOffer (F : Nat → Face) (L : Nat → Look) (i : Nat) : Offer :=
  ⟨blockSelector F i, exportExtension (F i), "export", (L i).text, (L i).filename, some i⟩

/-- `blocks_export_formats`: workflow/core.py 679-689. -/
def blocksOffers (W : Workflow α) (F : Nat → Face) (L : Nat → Look) : List Offer := (exportBlocks W F).map (blockOffer F L)

/-- The formats of all objects: core.py 609-614.  Those of states and runs have no decorated method. -/
def genericOffers : List Offer :=
  [⟨"json", "json", "save_to_stream", true, "", none⟩, ⟨"xlsx", "xlsx", "to_xlsx_stream", false, "", none⟩,
   ⟨"docx", "docx", "to_docx_stream", false, "", none⟩, ⟨"zip", "zip", "to_zip_stream", false, "", none⟩]

/-- `WorkflowState._export_formats`: workflow/core.py 2093-2099. -/
def stateOffers (W : Workflow α) (F : Nat → Face) (L : Nat → Look) : List Offer := genericOffers ++ blocksOffers W F L

/-- The format of the script: workflow/core.py 2284. -/
def scriptOffer : Offer := ⟨"py", "py", "save_script_to_stream", true, "", none⟩

/-- `WorkflowRun._export_formats`: workflow/core.py 2281-2286. -/
def runOffers (W : Workflow α) (F : Nat → Face) (L : Nat → Look) : List Offer := stateOffers W F L ++ [scriptOffer]

/-- `export_format_from_selector`: workflow/core.py 2101-2106.  An `ExportFormat` cannot be subscripted. -/
def offerFromSelector (W : Workflow α) (F : Nat → Face) (L : Nat → Look) (_selector : String) : Except PyErr Offer :=
  match blocksOffers W F L with
  | [] => .error .valueError
  | _ :: _ => .error .typeError

/-- What is given to an export: a `StringFile`, a `BinaryFile`, or the handle of an opened file.  Used for workflow/core.py 2120-2125. -/
inductive Stream | string | binary | handle
deriving DecidableEq, Repr

/-- The end of `export`: what is written, and the name set on the stream: workflow/core.py 2120-2125.  `file` gives the name and the content
of a value which is a `StringFile` or a `BinaryFile`. -/
def writeStream (file : α → Option (String × Content)) (k : Stream) (y : α) : Except PyErr (Option Content × String) :=
  match file y with
  | none => .error .attributeError
  | some (n, c) => match k, c with
    | .string, .text s => .ok (some (.text s), n)
    | .string, .bytes _ => .error .typeError
    | .binary, .bytes s => .ok (some (.bytes s), n)
    | .binary, .text _ => .error .attributeError
    | .handle, _ => .ok (none, n)

/-- `export`: workflow/core.py 2108-2125. -/
def Stage.export (S : Stage α) (file : α → Option (String × Content)) (s : St α) (k : Stream) (i : Nat) :
    Except PyErr (St α × Option Content × String) :=
  match blockExport S.W S.so S.F S.vw s i with
  | .error e => .error e
  | .ok (s', y) => match writeStream file k y with
    | .error e => .error e
    | .ok (c, n) => .ok (s', c, n)

/-- The loop of `zip_settings` of a run: workflow/core.py 2291-2299: the names and contents of the streams.  A stream in which nothing was
written is empty. -/
def Stage.zipLoop (S : Stage α) (file : α → Option (String × Content)) : List Offer → St α →
    Except PyErr (St α × List (String × Option Content))
  | [], s => .ok (s, [])
  | f :: fs, s => if f.extension ≠ "zip" then
      match f.block with
      | none => .error .typeError
      | some i => match S.export file s (if f.text then .string else .binary) i with
        | .error e => .error e
        | .ok (s', c, n) => match S.zipLoop file fs s' with
          | .error e => .error e
          | .ok (t, r) => .ok (t, (n, c) :: r)
    else S.zipLoop file fs s

/-- `zip_settings` of a run: workflow/core.py 2288-2299. -/
def Stage.zip (S : Stage α) (file : α → Option (String × Content)) (s : St α) : Except PyErr (St α × List (String × Option Content)) :=
  S.zipLoop file (blocksOffers S.W S.F S.L) s

/-- The loop of `save_export_to_file` on a run, for the selector of a block: core.py 619-632: the path and the content of the file.  The
other formats are given by `generic`. -/
def Stage.saveLoop (S : Stage α) (file : α → Option (String × Content)) (generic : String → Except PyErr Content) (s : St α)
    (selector path : String) : List Offer → Except PyErr (St α × String × Option Content)
  | [] => .error .valueError
  | f :: fs => if f.selector = selector then match f.block with
      | none => match generic f.method with
        | .error e => .error e
        | .ok c => .ok (s, DC.View.exportPath path f.extension, some c)
      | some i => match S.export file s .handle i with
        | .error e => .error e
        | .ok (s', c, _) => .ok (s', DC.View.exportPath path f.extension, c)
    else S.saveLoop file generic s selector path fs

/-- `save_export_to_file` on a run: core.py 617-632. -/
def Stage.save (S : Stage α) (file : α → Option (String × Content)) (generic : String → Except PyErr Content) (s : St α)
    (selector path : String) : Except PyErr (St α × String × Option Content) :=
  S.saveLoop file generic s selector path (runOffers S.W S.F S.L)

end DC.Wkf
