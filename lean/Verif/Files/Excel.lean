import Verif.Util.PyDict
import Verif.Util.Sort
import Verif.Types.Annot
/-
Objects written to Excel files, and read from them.
Source: dessia_common/exports.py 15-290, dessia_common/excel_reader.py 28-420, dessia_common/breakdown.py 34-118, dessia_common/core.py
283-300, 525-537.

A workbook is the list of its sheets: what openpyxl stores of a cell is its value and the target of its link.  Colours, borders and widths are
left out.  openpyxl renames a sheet whose title differs from another one by case only, or is that of its first sheet (`Sheet`): titles are
supposed to be none of those.
-/
namespace DC.Xl

/-- A class: its module and its name.  Used for excel_reader.py 43-48. -/
structure Cls where
  mod : String
  name : String
  deriving DecidableEq

/-- The values which are written.  An object is known by its class, its name and its other public attributes (the `__dict__` in order), which
are all serializable.  Sets, tuples, arrays and objects without name are left out.  Used for breakdown.py 40-45. -/
inductive Val where
  | none
  | bool (b : Bool)
  | int (i : Int)
  | float (q : Rat)
  | str (s : String)
  | list (l : List Val)
  | dict (l : List (String × Val))
  | obj (c : Cls) (name : String) (attrs : List (String × Val))

/-- What Python and the modules of the user bring.  Used for excel_reader.py 197-199. -/
structure Setting where
  /-- `==` of two values, by which the dictionaries of objects are keyed -/
  same : Val → Val → Bool
  /-- `str(value)` -/
  text : Val → String
  /-- `literal_eval`; nothing when it raises -/
  lit : String → Option Val
  /-- `round(value, 6)` -/
  round : Rat → Rat
  /-- `get_python_class_from_class_name` on a module and a name -/
  load : String → String → Except PyErr Cls
  /-- the names of the arguments of the constructor, and whether they have a default value -/
  params : Cls → List (String × Bool)
  /-- the call of the constructor on named arguments; the name of the object is `''` when the constructor leaves none: excel_reader.py 197-199 -/
  build : Cls → List (String × Val) → Except PyErr Val

variable (E : Setting)

/-! ### Breakdown -/

/-- A breakdown dictionary: class name, objects, paths.  Used for breakdown.py 37-47. -/
abbrev BD := List (String × List (Val × String))

/-- `len(path.split('.'))`: breakdown.py 42. -/
def depth (path : String) : Nat := path.toList.count '.' + 1

/-- One iteration of the inner loop: breakdown.py 40-45.  The dictionary keeps the object it had. -/
def putRef (ref : Val × String) : List (Val × String) → List (Val × String)
  | [] => [ref]
  | (x, q) :: l => if E.same x ref.1 then (x, if depth ref.2 < depth q then ref.2 else q) :: l else (x, q) :: putRef ref l

/-- One iteration of the outer loop: breakdown.py 37-47. -/
def putClass (cr : String × List (Val × String)) : BD → BD
  | [] => [cr]
  | (c, l) :: d => if c = cr.1 then (c, cr.2.foldl (fun l r => putRef E r l) l) :: d else (c, l) :: putClass cr d

/-- `merge_breakdown_dicts`: breakdown.py 34-48. -/
def merge (d e : BD) : BD := e.foldl (fun d cr => putClass E cr d) d

/-- `if path: path += '.'`: breakdown.py 59-60, 66-67, 91-92. -/
def pref (path : String) : String := if path = "" then "" else path ++ "."

/-- The three passes on the attributes: breakdown.py 103, 109, 115. -/
def Val.pass : Val → Nat
  | .list _ => 1
  | .dict _ => 2
  | _ => 0

mutual
/-- `breakdown`: breakdown.py 51-86. -/
def breakdown : Val → String → BD
  | .list l, path => items l (pref path) 0 []
  | .dict l, path => entries l (pref path) []
  | .obj c n as, path =>
    merge E (if path = "" then [] else [(c.name, [(.obj c n as, path)])])
      (attributes as (pref path) 2 (attributes as (pref path) 1 (attributes as (pref path) 0 [])))
  | .none, _ => []
  | .bool _, _ => []
  | .int _, _ => []
  | .float _, _ => []
  | .str _, _ => []
/-- The loop on a sequence: breakdown.py 62-64. -/
def items : List Val → String → Nat → BD → BD
  | [], _, _, bd => bd
  | x :: l, path, i, bd => items l path (i + 1) (merge E bd (breakdown x (path ++ toString i)))
/-- The loop on a dictionary: breakdown.py 69-71. -/
def entries : List (String × Val) → String → BD → BD
  | [], _, bd => bd
  | (k, x) :: l, path, bd => entries l path (merge E bd (breakdown x (path ++ k)))
/-- One of the three loops on the attributes: breakdown.py 101-105, 107-111, 113-117. -/
def attributes : List (String × Val) → String → Nat → BD → BD
  | [], _, _, bd => bd
  | (k, x) :: l, path, n, bd => attributes l path n (if x.pass = n then merge E bd (breakdown x (path ++ k)) else bd)
end

/-! ### Workbooks -/

/-- The value of a cell.  A number which is whole is read as an `int`, equal to the `float` which was written: they are not told apart.
Used for exports.py 142-163. -/
inductive CVal where
  | none
  | num (q : Rat)
  | text (s : String)
  deriving DecidableEq

/-- The target of a link, `#sheet!Arow`.  Used for exports.py 102-103. -/
structure Link where
  sheet : String
  row : Nat
  deriving DecidableEq

/-- A cell.  Used for exports.py 142-170. -/
structure Cell where
  value : CVal
  link : Option Link
  deriving DecidableEq

/-- A sheet: its title; its second row, which holds a module and, from the second column on, the name of a class (and of the object, for the
main sheet); its third row from the second column on; the first column and the other ones of the rows from the fourth one on.
Used for exports.py 97-103, 237-255. -/
structure Sheet where
  title : String
  mod : String
  second : List CVal
  header : List String
  paths : List String
  rows : List (List Cell)
  deriving DecidableEq

/-- A workbook: its main sheet is the first one.  Used for exports.py 78-104, 230-257. -/
abbrev Book := List Sheet

/-! ### Writing -/

/-- `bool(value)`; objects are true.  Used for exports.py 128-140. -/
def Val.truth : Val → Bool
  | .none => false
  | .bool b => b
  | .int i => i != 0
  | .float q => q != 0
  | .str s => s != ""
  | .list l => !l.isEmpty
  | .dict l => !l.isEmpty
  | .obj _ _ _ => true

/-- `value.__class__.__name__`.  Used for exports.py 128-140. -/
def Val.className : Val → String
  | .none => "NoneType"
  | .bool _ => "bool"
  | .int _ => "int"
  | .float _ => "float"
  | .str _ => "str"
  | .list _ => "list"
  | .dict _ => "dict"
  | .obj c _ _ => c.name

/-- Whether a value is a number or a string: exports.py 32. -/
def Val.builtin : Val → Bool
  | .bool _ => true
  | .int _ => true
  | .float _ => true
  | .str _ => true
  | _ => false

/-- The rows of a sheet: `object_to_sheet_row`, exports.py 102-103. -/
def rowsOf (title : String) : Nat → List (Val × String) → List (Val × Link × String)
  | _, [] => []
  | i, (x, p) :: l => (x, ⟨title, i + 2⟩, p) :: rowsOf title (i + 1) l

/-- `object_to_sheet_row`: exports.py 97-103. -/
def places (bd : BD) : List (Val × Link × String) := bd.flatMap fun cl => rowsOf cl.1 0 cl.2

/-- `object_to_sheet_row[value]`: the last value given to the key.  exports.py 103, 136-137, 158-159. -/
def place (bd : BD) (v : Val) : Option (Link × String) :=
  ((places bd).reverse.find? fun e => E.same e.1 v).map (·.2)

/-- `compute_cell_link`: exports.py 128-140. -/
def linkOf (bd : BD) (v : Val) : Option Link :=
  if v.truth then
    match v with
    | .dict ((_, x) :: _) => some ⟨x.className, 2⟩
    | .dict [] => none
    | .list l => if l.all Val.builtin then none else match l with
      | x :: _ => some ⟨x.className, 2⟩
      | [] => none
    | v => (place E bd v).map fun p => ⟨p.1.sheet, p.1.row + 2⟩
  else none

/-- The content of a cell: exports.py 142-163. -/
def contentOf (bd : BD) (v : Val) : CVal :=
  match v with
  | .dict l => .text ("Dict of " ++ toString l.length ++ " items")
  | .list l => if l.all Val.builtin then .text (E.text (.list l)) else .text ("List of " ++ toString l.length ++ " items")
  | .float q => .num (E.round q)
  | v => match place E bd v with
    | some p => .text p.2
    | none => .text (E.text v)

/-- `write_value_to_cell`: exports.py 142-170. -/
def cellOf (bd : BD) (v : Val) : Cell := ⟨contentOf E bd v, linkOf E bd v⟩

/-- The attributes, sorted by names: exports.py 118-119, 181-182. -/
def sorted (as : List (String × Val)) : List (String × Val) := sortBy (fun a b => decide (a.1 ≤ b.1)) as

/-- `write_object_to_row`, from the second column on: exports.py 172-187. -/
def rowOf (bd : BD) : Val → List Cell
  | .obj _ n as => ⟨.text n, none⟩ :: (sorted as).map fun a => cellOf E bd a.2
  | _ => []

/-- `write_class_header_to_row`, from the second column on: exports.py 106-126. -/
def headerOf : Val → List String
  | .obj _ _ as => "name" :: (sorted as).map (·.1)
  | _ => []

/-- The module of the class of an object.  Used for exports.py 97-103, 237-255. -/
def Val.module : Val → String
  | .obj c _ _ => c.mod
  | _ => ""

/-- The sheet of a class: exports.py 97-103, 237-255.  The module is that of the first object, the header is that of the last one. -/
def sheetOf (bd : BD) (cl : String × List (Val × String)) : Sheet :=
  { title := cl.1
    mod := match cl.2 with
      | (x, _) :: _ => x.module
      | [] => ""
    second := match cl.2 with
      | (x, _) :: _ => [.text x.className]
      | [] => []
    header := match cl.2.getLast? with
      | some (x, _) => headerOf x
      | none => []
    paths := cl.2.map (·.2)
    rows := cl.2.map fun e => rowOf E bd e.1 }

/-- The main sheet: exports.py 193-235. -/
def mainSheet (bd : BD) (v : Val) (name : String) : Sheet :=
  { title := "Object " ++ v.className
    mod := v.module
    second := [.text v.className, .text name]
    header := headerOf v
    paths := [""]
    rows := [rowOf E bd v] }

/-- The name of an object.  Used for exports.py 78-104, 230-257. -/
def Val.nameOf : Val → String
  | .obj _ n _ => n
  | _ => ""

/-- `XLSXWriter`: exports.py 78-104, 230-257; core.py 534-537. -/
def write (v : Val) : Book :=
  let bd := breakdown E v ""
  mainSheet E bd v v.nameOf :: bd.map (sheetOf E bd)

/-! ### The file -/

/-- A value as openpyxl reads it with `data_only`: an empty text is not written, and a text which begins with `=` is a formula whose value
is not known.  excel_reader.py 115. -/
def stored : CVal → CVal
  | .text s => match s.toList with
    | [] => .none
    | '=' :: _ :: _ => .none
    | _ => .text s
  | v => v

/-- The sheet, as it is read.  Used for excel_reader.py 113-117. -/
def Sheet.stored (s : Sheet) : Sheet :=
  { s with second := s.second.map Xl.stored, rows := s.rows.map fun r => r.map fun c => { c with value := Xl.stored c.value } }

/-- The book, as it is read: excel_reader.py 113-117. -/
def Book.stored (b : Book) : Book := b.map Sheet.stored

/-! ### Reading -/

/-- What the reader holds for a column of a row: a value, a linked cell (excel_reader.py 322-328), or what replaces it (214-216, 281). -/
inductive Got where
  | cell (c : CVal)
  | linked (c : CVal) (l : Link)
  | val (v : Val)

/-- The number of columns of a sheet, the first one left out (`max_column`).  Used for excel_reader.py 316-318. -/
def Sheet.width (s : Sheet) : Nat :=
  (s.rows.map List.length).foldl max (max s.second.length s.header.length)

/-- Columns which are missing are read as empty ones.  Used for excel_reader.py 316-318. -/
def pad {β : Type} (n : Nat) (d : β) (l : List β) : List β := l ++ List.replicate (n - l.length) d

/-- The attributes of a sheet: excel_reader.py 316-318. -/
def Sheet.attributes (s : Sheet) : List (Option String) := pad s.width none (s.header.map some)

/-- A column of a row: excel_reader.py 323-328. -/
def got (c : Cell) : Got :=
  match c.link with
  | some l => .linked c.value l
  | none => .cell c.value

/-- The rows of a sheet: excel_reader.py 320-329. -/
def Sheet.data (s : Sheet) : List (List Got) := s.rows.map fun r => pad s.width (.cell .none) (r.map got)

/-- The data extracted from a sheet: excel_reader.py 43-48. -/
structure Extract where
  cls : Cls
  attributes : List (Option String)
  data : List (List Got)

/-- `missed_attribute`: excel_reader.py 77-87. -/
def missed (ps : List (String × Bool)) (as : List (Option String)) : Except PyErr Unit :=
  if as.length = ps.length then .ok ()
  else if ps.any (fun p => !p.2 && !as.contains (some p.1)) then .error .valueError else .ok ()

/-- The text of a cell which holds the name of a class.  Used for excel_reader.py 314. -/
def CVal.str : CVal → Except PyErr String
  | .text s => .ok s
  | _ => .error .typeError

/-- `ExcelDataExtract`: excel_reader.py 43-87. -/
def extract (mod : String) (cls : CVal) (as : List (Option String)) (data : List (List Got)) : Except PyErr Extract := do
  let n ← cls.str
  let c ← E.load mod n
  missed (E.params c) as
  .ok ⟨c, as, data⟩

/-- The name of the class of a sheet: excel_reader.py 314. -/
def Sheet.className (s : Sheet) : CVal := s.second.headD .none

/-- One sheet in `process_workbook`: excel_reader.py 313-331. -/
def extractSheet (s : Sheet) : Except PyErr (String × Extract) := do
  let x ← extract E s.mod s.className s.attributes s.data
  .ok (s.title, x)

/-- `process_workbook`: excel_reader.py 305-332. -/
def processWorkbook (b : Book) : Except PyErr (List (String × Extract)) := b.mapM (extractSheet E)

/-- A value of `get_data`: excel_reader.py 183-189.  A linked cell which is left is passed as it is, which is no value of ours. -/
def evaluated : Got → Except PyErr Val
  | .cell .none => .ok .none
  | .cell (.num q) => .ok (.float q)
  | .cell (.text s) => .ok (match E.lit s with
    | some v => v
    | none => .str s)
  | .linked _ _ => .error .typeError
  | .val (.str s) => .ok (match E.lit s with
    | some v => v
    | none => .str s)
  | .val v => .ok v

/-- `get_data`: excel_reader.py 171-190. -/
def getData (ps : List (String × Bool)) : List (Option String) → List Got → Except PyErr (List (String × Val))
  | some a :: as, g :: gs =>
    if ps.any (·.1 == a) then do
      let v ← evaluated E g
      let r ← getData ps as gs
      .ok ((a, v) :: r)
    else getData ps as gs
  | none :: as, _ :: gs => getData ps as gs
  | _, _ => .ok []

/-- `create_object`: excel_reader.py 192-201.  Each attribute occurs once in a header. -/
def createObject (c : Cls) (as : List (Option String)) (gs : List Got) : Except PyErr Val := do
  let d ← getData E (E.params c) as gs
  E.build c d

/-- `get_location`: excel_reader.py 119-136. -/
def location (b : Book) (l : Link) : Except PyErr String :=
  if b.any (·.title == l.sheet) then .ok l.sheet else .error .valueError

/-- Whether a text contains another one.  Used for excel_reader.py 77-87. -/
def contains (s t : String) : Bool := s.toList.tails.any fun u => t.toList.isPrefixOf u

/-- `update_attribute_values`: excel_reader.py 138-169.  A sheet is asked for by a pair, and is not found.  The value of a linked cell is a
text, unless it begins with `=`. -/
def update (b : Book) (c : CVal) (l : Link) (values : List Val) : Except PyErr Val := do
  let _ ← location b l
  let s ← c.str
  if contains s "Dict" then .error .keyError
  else if ["Dict", "List", "Set", "Tuple"].any (contains s) then .ok (.list values)
  else match values with
    | v :: _ => .ok v
    | [] => .error .indexError

/-- The objects of each sheet, by title.  Used for excel_reader.py 215-218, 279-282. -/
abbrev Inst := List (String × List Val)

/-- `instantiated_objects[title]`.  Used for excel_reader.py 215-218, 279-282. -/
def Inst.get (inst : Inst) (t : String) : Except PyErr (List Val) :=
  match inst.lookup t with
  | some l => .ok l
  | none => .error .keyError

/-- One column of a row with links: excel_reader.py 215-218, 279-282. -/
def replaced (b : Book) (inst : Inst) : Got → Except PyErr Got
  | .linked c l => do
    let t ← location b l
    let vs ← inst.get t
    let v ← update b c l vs
    .ok (.val v)
  | g => .ok g

/-- `instantiate_main_object` and `process_single_hyperlink_row`: excel_reader.py 203-223, 266-286. -/
def singleRow (b : Book) (inst : Inst) (x : Extract) : Except PyErr (List Val) :=
  match x.data with
  | [] => .error .indexError
  | r :: _ => do
    let r ← r.mapM (replaced b inst)
    let o ← createObject E x.cls x.attributes r
    .ok [o]

/-- The values of a row of a sheet, from the second column on: excel_reader.py 241. -/
def Sheet.row (s : Sheet) (k : Nat) : List CVal :=
  pad s.width .none (match k with
    | 2 => s.second
    | 3 => s.header.map .text
    | k => match s.rows[k - 4]? with
      | some r => if 4 ≤ k then r.map Cell.value else []
      | none => [])

/-- `process_sub_objects`: excel_reader.py 225-246. -/
def subObject (b : Book) : Got → Except PyErr Got
  | .linked _ l => do
    let t ← location b l
    match b.find? (·.title == t) with
    | none => .error .keyError
    | some s => do
      let x ← extract E s.mod s.className s.attributes []
      let o ← createObject E x.cls x.attributes ((s.row l.row).map .cell)
      .ok (.val o)
  | g => .ok g

/-- A row of `process_multiple_hyperlink_rows`: excel_reader.py 259-261. -/
def multiRow (b : Book) (x : Extract) (r : List Got) : Except PyErr Val := do
  let r ← r.mapM (subObject E b)
  createObject E x.cls x.attributes r

/-- `process_simple_sheet`: excel_reader.py 288-303. -/
def simpleSheet (x : Extract) : Except PyErr (List Val) := x.data.mapM (createObject E x.cls x.attributes)

/-- Whether a column holds a linked cell.  Used for excel_reader.py 359-369. -/
def Got.isLinked : Got → Bool
  | .linked _ _ => true
  | _ => false

/-- The objects of a sheet other than the main one: excel_reader.py 359-369. -/
def sheetObjects (b : Book) (inst : Inst) (x : Extract) : Except PyErr (List Val) :=
  if x.data.any (·.any Got.isLinked) then
    if 1 < x.data.length then x.data.mapM (multiRow E b x) else singleRow E b inst x
  else simpleSheet E x

/-- The loop of `read_workbook`, on the sheets from the last one on: excel_reader.py 353-370. -/
def readLoop (b : Book) (main : String) : List (String × Extract) → Inst → Except PyErr Inst
  | [], inst => .ok inst
  | (key, x) :: rest, inst =>
    if key = main then do
      let os ← singleRow E b inst x
      .ok (Dict.set inst key os)
    else do
      let os ← sheetObjects E b inst x
      readLoop b main rest (Dict.set inst key os)

/-- `read_workbook`: excel_reader.py 335-370; core.py 283-300. -/
def read (b : Book) : Except PyErr Val :=
  match b with
  | [] => .error .indexError
  | m :: _ => do
    let xs ← processWorkbook E b
    let inst ← readLoop E b m.title xs.reverse []
    let os ← inst.get m.title
    match os with
    | o :: _ => .ok o
    | [] => .error .indexError

end DC.Xl
