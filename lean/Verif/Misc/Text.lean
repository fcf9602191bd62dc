import Verif.Values.Basic
import Verif.Util.PyList
import Verif.Util.PyDict
import Verif.Util.Str
/-
Names, files, scripts, tables, sheets and display settings.
Source: dessia_common/utils/helpers.py 41-53, files.py 37-48 and 96-106, core.py 216-226, 1211-1216, workflow/utils.py
14-48, exports.py 293-387, excel_reader.py, displays.py 15-82, schemas/core.py 327-334.
-/
namespace DC.Txt

/-- One word of `prettyname`: utils/helpers.py 47-50.  `upper` is `str.upper` on one character, which may give several
ones. -/
def prettyWord (upper : Char → List Char) : List Char → List Char
  | c :: d :: w => upper c ++ d :: w
  | w => w

/-- `prettyname`: utils/helpers.py 41-53.  An empty name has one empty word. -/
def prettyname (upper : Char → List Char) (name : List Char) : List Char :=
  Str.join [' '] ((Str.split '_' name).map (prettyWord upper))

/-- The name of the file written by `save_template_to_file`: files.py 40-43, 99-102. -/
def templateName (extension filename : List Char) : List Char :=
  if extension ≠ [] ∧ ¬ extension.isSuffixOf filename then filename ++ '.' :: extension else filename

/-- The name of the file written by `save_to_file`: core.py 222-224. -/
def jsonName (filepath : List Char) : List Char :=
  if ¬ ['.', 'j', 's', 'o', 'n'].isSuffixOf filepath then filepath ++ ['.', 'j', 's', 'o', 'n'] else filepath

/-- `'.'.join(import_.split('.')[:-1])` and `import_.split('.')[-1]`: workflow/utils.py 40-41. -/
def splitImport (s : List Char) : List Char × List Char :=
  let words := Str.split '.' s
  (Str.join ['.'] words.dropLast, words.getLast?.getD [])

/-- One iteration of `get_import_dict`: workflow/utils.py 40-46. -/
def addImport (d : List (List Char × List (List Char))) (s : List Char) : List (List Char × List (List Char)) :=
  let mc := splitImport s
  match d.lookup mc.1 with
  | none => Dict.set d mc.1 [mc.2]
  | some cs => if mc.2 ∈ cs then d else Dict.set d mc.1 (cs ++ [mc.2])

/-- `get_import_dict`: workflow/utils.py 36-48. -/
def importDict (imports : List (List Char)) : List (List Char × List (List Char)) := imports.foldl addImport []

/-- `f"from {module} import {', '.join(class_list)}\n"`: workflow/utils.py 27. -/
def fromLine (mc : List Char × List (List Char)) : List Char :=
  "from ".toList ++ mc.1 ++ " import ".toList ++ Str.join [',', ' '] mc.2 ++ ['\n']

/-- `f"import {import_as_is}\n"`: workflow/utils.py 30. -/
def importLine (s : List Char) : List Char := "import ".toList ++ s ++ ['\n']

/-- `imports_to_str`: workflow/utils.py 23-34. -/
def importsToStr (imports asIs : List (List Char)) : List Char :=
  asIs.foldl (fun script s => if Str.isIn (importLine s) script then script else script ++ importLine s)
    ((importDict imports).flatMap fromLine)

/-- A line of a table: a row or the number of rows left out. exports.py 365-369, 382. -/
inductive Line (ρ : Type) where
  | row (r : ρ)
  | unprinted (n : Nat)
  deriving DecidableEq

/-- `content[-n:]` for `n > 0`: exports.py 385. -/
def lastRows {ρ : Type} (content : List ρ) (n : Nat) : List ρ := content.drop (content.length - n)

/-- `_content_table`: exports.py 371-387, by lines.  Simplification: the limit is not negative. -/
def contentTable {ρ : Type} (limit : Option Nat) (content : List ρ) : List (Line ρ) :=
  match limit with
  | none => content.map .row
  | some limit =>
    let half := limit / 2
    (content.take half).map .row ++
    if 1 < limit then
      (if limit < content.length then [.unprinted (content.length - limit)] else []) ++
      (if half < content.length then (lastRows content half).map .row else [])
    else []

/-- `_string_in_table`: exports.py 341-342. -/
def cell (limit : Nat) (s : List Char) : List Char := s.take limit ++ if limit < s.length then ['.', '.', '.'] else []

/-- `_table_line`: exports.py 359-363, from the strings of the values. -/
def tableLine (limit : Nat) (row : List (List Char)) : List Char :=
  row.foldl (fun line v => line ++ [' '] ++ cell limit v ++ [' ', '|']) ['|'] ++ ['\n']

/-- The loop of `check_duplicate_attributes`: excel_reader.py 22-27. -/
def duplicateLoop (seen : List String) : List String → Option String
  | [] => none
  | a :: l => if a ∈ seen then some a else duplicateLoop (a :: seen) l

/-- `check_duplicate_attributes`: excel_reader.py 16-27. -/
def checkDuplicateAttributes (attributes : List String) : Option String := duplicateLoop [] attributes

/-- The arguments of a constructor, with whether they have a default value: excel_reader.py 58-75. -/
abbrev InitArgs := List (String × Bool)

/-- `missed_attribute`: excel_reader.py 77-86 (both branches of the inner test are the same). -/
def missedAttribute (init : InitArgs) (attributes : List String) : Except PyErr Unit :=
  if attributes.length ≠ init.length then
    if init.any fun p => !(attributes.contains p.1) && !p.2 then .error .valueError else .ok ()
  else .ok ()

/-- `get_data`: excel_reader.py 171-192.  Simplification: the strings of the cells are not evaluated as literals. -/
def getData {β : Type} (init : InitArgs) (attributes : List String) (values : List β) : List (String × β) :=
  (attributes.zip values).foldl (fun d av => if av.1 ∈ init.map (·.1) then Dict.set d av.1 av.2 else d) []

/-- `create_object`: excel_reader.py 194-202: the constructor raises TypeError for a missing argument without default. The
object is represented by the arguments given to its constructor. -/
def createObject {β : Type} (init : InitArgs) (attributes : List String) (values : List β) : Except PyErr (List (String × β)) :=
  let data := getData init attributes values
  if init.any fun p => !((data.map (·.1)).contains p.1) && !p.2 then .error .typeError else .ok data

/-- A sheet of objects: `ExcelDataExtract.__init__` then `process_simple_sheet`, excel_reader.py 41-47, 288-304. -/
def readSheet {β : Type} (init : InitArgs) (attributes : List String) (rows : List (List β)) :
    Except PyErr (List (List (String × β))) := do
  missedAttribute init attributes
  rows.mapM (createObject init attributes)

/-- `DisplaySetting`: displays.py 15-28. -/
structure Display where
  selector : Option String
  type : String
  method : String
  arguments : List (String × V)
  serializeData : Bool
  loadByDefault : Bool

/-- `DisplaySetting.__init__`: displays.py 18-28; `None` becomes an empty dictionary. -/
def Display.init (selector : Option String) (type method : String) (arguments : Option (List (String × V)))
    (serializeData loadByDefault : Bool) : Display :=
  ⟨selector, type, method, arguments.getD [], serializeData, loadByDefault⟩

/-- `__hash__`: displays.py 29-31, from the hashes of the strings and of the selector. -/
def Display.hash (h : String → Int) (ho : Option String → Int) (d : Display) : Int :=
  ho d.selector + h d.type + h d.method + 97 * (if d.serializeData then 1 else 0) + 769 * (if d.loadByDefault then 1 else 0)

/-- `__eq__` with an other display setting: displays.py 33-41. -/
def Display.eq (d e : Display) : Bool :=
  d.selector == e.selector && d.type == e.type && d.method == e.method && d.serializeData == e.serializeData &&
    d.loadByDefault == e.loadByDefault

/-- A value of the dictionary of a display setting: displays.py 60-61. -/
inductive DVal where
  | text (s : Option String)
  | dict (d : List (String × V))
  | flag (b : Bool)

/-- `to_dict`: displays.py 58-61. -/
def Display.toDict (d : Display) : List (String × DVal) :=
  [("selector", .text d.selector), ("type", .text (some d.type)), ("method", .text (some d.method)),
   ("arguments", .dict d.arguments), ("serialize_data", .flag d.serializeData), ("load_by_default", .flag d.loadByDefault)]

/-- `dict_[k]` holding a text: displays.py 70-72. -/
def getText (d : List (String × DVal)) (k : String) : Except PyErr (Option String) :=
  match d.lookup k with
  | some (.text s) => .ok s
  | some _ => .error .typeError
  | none => .error .keyError

/-- `dict_[k]` holding a non empty text: displays.py 70-72. -/
def getStr (d : List (String × DVal)) (k : String) : Except PyErr String := do
  match ← getText d k with
  | some s => .ok s
  | none => .error .typeError

/-- `dict_[k]` holding a boolean: displays.py 70-72. -/
def getFlag (d : List (String × DVal)) (k : String) : Except PyErr Bool :=
  match d.lookup k with
  | some (.flag b) => .ok b
  | some _ => .error .typeError
  | none => .error .keyError

/-- `dict_[k]` holding a dictionary: displays.py 71. -/
def getArgs (d : List (String × DVal)) (k : String) : Except PyErr (List (String × V)) :=
  match d.lookup k with
  | some (.dict a) => .ok a
  | some _ => .error .typeError
  | none => .error .keyError

/-- `dict_to_object`: displays.py 63-72.  Simplification: values of wrong types are rejected. -/
def Display.ofDict (d : List (String × DVal)) : Except PyErr Display := do
  let selector ← getText d "selector"
  let type ← getStr d "type"
  let method ← getStr d "method"
  let arguments ← getArgs d "arguments"
  let serializeData ← getFlag d "serialize_data"
  let loadByDefault ← getFlag d "load_by_default"
  .ok (Display.init selector type method (some arguments) serializeData loadByDefault)

/-- `compose`: displays.py 74-82. -/
def Display.compose (d : Display) (attr : String) : Display := { d with method := attr ++ "." ++ d.method }

/-- `reference_path`: displays.py 43-56.  Simplification: the argument is a string or None. -/
def Display.referencePath (d : Display) : String :=
  match d.arguments.lookup "reference_path" with
  | some (.str s) => s
  | _ => "#"

/-- `display_settings_from_selector`: core.py 1211-1216. -/
def displayFromSelector (settings : List Display) (selector : Option String) : Except PyErr Display :=
  match settings.find? fun d => d.selector == selector with
  | some d => .ok d
  | none => .error .valueError

/-- `find_attribute_step`: schemas/core.py 327-334, a step being given by its attributes. -/
def findAttributeStep (steps : List (List String)) (name : String) : Except PyErr (Option (List String)) :=
  match steps.filter fun s => s.contains name with
  | [] => .ok none
  | [s] => .ok (some s)
  | _ => .error .valueError

end DC.Txt
