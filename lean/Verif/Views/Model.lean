import Verif.Misc.Text
/-
Displays and exports declared by decorators.  Source: dessia_common/decorators.py, core.py 399-460, 556-632, 739-746.
-/
namespace DC.View

open DC.Txt (Display displayFromSelector)

/-! ### Decorators -/

/-- The decorators of views: decorators.py 43-108. -/
inductive Kind | picture | plotData | markdown | cad
deriving DecidableEq, Repr

/-- The decorators of exports: decorators.py 111-170. -/
inductive ExpKind | any (extension : String) (text : Bool) | step | stl | html | docx | xlsx
deriving DecidableEq, Repr

/-- A decorator in the source of a method, with its arguments.  `other` is a decorator of an other origin, with the name read in the source
(`none` if it is neither a name, nor an attribute, nor a call of those).  Simplification: it returns the same function, or one with the
same attributes.  Used for decorators.py 43-188. -/
inductive Deco
  | view (kind : Kind) (selector : Option String) (load : Bool)
  | exp (kind : ExpKind) (selector : String)
  | other (name : Option String)
deriving DecidableEq, Repr

/-- The name of a decorator of views: decorators.py 43, 60, 77, 94. -/
def Kind.name : Kind → String
  | .picture => "picture_view"
  | .plotData => "plot_data_view"
  | .markdown => "markdown_view"
  | .cad => "cad_view"

/-- The name of a decorator of exports: decorators.py 111, 128, 137, 146, 155, 164. -/
def ExpKind.name : ExpKind → String
  | .any _ _ => "export_decorator"
  | .step => "export_step"
  | .stl => "export_stl"
  | .html => "export_html"
  | .docx => "export_docx"
  | .xlsx => "export_xlsx"

/-- The type given by a decorator of views: decorators.py 54, 71, 88, 105. -/
def Kind.type : Kind → String
  | .picture => "picture"
  | .plotData => "plot_data"
  | .markdown => "markdown"
  | .cad => "babylon_data"

/-- `serialize_data` given by a decorator of views: decorators.py 55, 72, 89, 106. -/
def Kind.serialized : Kind → Bool
  | .markdown => false
  | _ => true

/-- The extension given by a decorator of exports: decorators.py 128-170. -/
def ExpKind.extension : ExpKind → String
  | .any e _ => e
  | .step => "step"
  | .stl => "stl"
  | .html => "html"
  | .docx => "docx"
  | .xlsx => "xlsx"

/-- Whether an export is declared as a text: decorators.py 134, 143, 152, 161, 170. -/
def ExpKind.text : ExpKind → Bool
  | .any _ t => t
  | .step => true
  | .stl => false
  | .html => true
  | .docx => true
  | .xlsx => false

/-- `DISPLAY_DECORATORS`: decorators.py 9. -/
def displayDecorators : List String := ["plot_data_view", "markdown_view", "cad_view"]

/-- `EXPORT_DECORATORS`: decorators.py 10. -/
def exportDecorators : List String := ["export_decorator", "export_step", "export_stl", "export_html", "export_docx", "export_xlsx"]

/-- The attributes set on a function: decorators.py 173-188; `none` if not set.  The selector of a view can be None. -/
structure Meta where
  type : Option String := none
  selector : Option (Option String) := none
  serialized : Bool := false
  load : Bool := false
  text : Option Bool := none
  extension : Option String := none
  method : Option String := none

/-- What a decorator sets on a function of the given name: decorators.py 43-188. -/
def Deco.apply (name : String) : Deco → Meta → Meta
  | .view k s l, m => { m with type := some k.type, selector := some s, serialized := k.serialized, load := l }
  | .exp k s, m => { m with text := some k.text, selector := some (some s), extension := some k.extension, method := some name }
  | .other _, m => m

/-- A function: its name and its decorators, from top to bottom.  `plain` is false if its source is not a `def`.  Used for decorators.py 173-188. -/
structure Fn where
  name : String
  decos : List Deco
  plain : Bool := true

/-- The attributes of a function after decoration, the lowest decorator coming first: decorators.py 173-188. -/
def Fn.attrs (f : Fn) : Meta := f.decos.foldr (Deco.apply f.name) {}

/-- A method of a class under a name; `bound` if it is a class method.  Used for decorators.py 13-21. -/
structure Member where
  attr : String
  fn : Fn
  bound : Bool := false

/-- The methods of a class by increasing names, inherited ones included, as `inspect.getmembers` gives them.  Used for decorators.py 13-21. -/
abbrev Class := List Member

/-- `get_all_decorated_methods`: decorators.py 13-21. -/
def allDecorated (C : Class) : List Fn :=
  (((C.filter fun m => !m.bound) ++ C.filter fun m => m.bound).map (·.fn)).filter fun f => f.plain && !f.decos.isEmpty

/-- The name of a decorator in the source: decorators.py 32-35. -/
def Deco.name : Deco → Except PyErr String
  | .view k _ _ => .ok k.name
  | .exp k _ => .ok k.name
  | .other (some n) => .ok n
  | .other none => .error .attributeError

/-- The names of the decorators of a method: decorators.py 30-36. -/
def decoNames : List Deco → Except PyErr (List String)
  | [] => .ok []
  | d :: ds => match d.name with
    | .error e => .error e
    | .ok n => match decoNames ds with
      | .error e => .error e
      | .ok ns => .ok (n :: ns)

/-- The names of the methods with a decorator: decorators.py 29-39. -/
def methodNames (deco : String) : List Fn → Except PyErr (List String)
  | [] => .ok []
  | f :: fs => match decoNames f.decos with
    | .error e => .error e
    | .ok ns => match methodNames deco fs with
      | .error e => .error e
      | .ok r => .ok (if deco ∈ ns then f.name :: r else r)

/-- `getattr(class_, n)`: decorators.py 40.  Simplification: attributes which are not methods are left out. -/
def getMethod (C : Class) (n : String) : Except PyErr Fn :=
  match C.find? fun m => m.attr == n with
  | some m => .ok m.fn
  | none => .error .attributeError

/-- `[getattr(class_, n) for n in method_names]`: decorators.py 40. -/
def getMethods (C : Class) : List String → Except PyErr (List Fn)
  | [] => .ok []
  | n :: ns => match getMethod C n with
    | .error e => .error e
    | .ok f => match getMethods C ns with
      | .error e => .error e
      | .ok fs => .ok (f :: fs)

/-- `get_decorated_methods`: decorators.py 24-40. -/
def decoratedMethods (C : Class) (deco : String) : Except PyErr (List Fn) :=
  match methodNames deco (allDecorated C) with
  | .error e => .error e
  | .ok ns => getMethods C ns

/-! ### Displays -/

/-- The setting of a decorated method: core.py 416-424.  The type of a method without type is False, written "" here. -/
def settingOf (f : Fn) : Display :=
  let m := f.attrs
  let selector := match m.selector with
    | some (some s) => s
    | _ => f.name
  Display.init (some selector) (m.type.getD "") f.name none m.serialized m.load

/-- `_display_settings_from_decorators`: core.py 411-430. -/
def viewSettings (C : Class) : List String → Except PyErr (List Display)
  | [] => .ok []
  | d :: ds => match decoratedMethods C d with
    | .error e => .error e
    | .ok fs => match viewSettings C ds with
      | .error e => .error e
      | .ok r => .ok (fs.map settingOf ++ r)

/-- The display inserted when no view is a markdown: core.py 405-406. -/
def defaultMarkdown : Display := Display.init (some "Markdown") "markdown" "to_markdown" none false true

/-- The last display: core.py 408. -/
def treeSetting : Display := Display.init (some "Structure Tree") "tree" "" none false false

/-- `display_settings`: core.py 398-409. -/
def displaySettings (C : Class) : Except PyErr (List Display) :=
  match viewSettings C displayDecorators with
  | .error e => .error e
  | .ok s => .ok ((if s.any fun d => d.type == "markdown" then s else defaultMarkdown :: s) ++ [treeSetting])

/-- What is written in a file or a stream.  Used for core.py 619-632. -/
inductive Content | text (s : String) | bytes (s : String)
deriving DecidableEq, Repr

/-- An object: its class, what its methods without arguments return (`none` is None), and what its export methods write.  Used for core.py 437. -/
structure Obj (δ : Type) where
  cls : Class
  call : String → Except PyErr (Option δ)
  write : String → Except PyErr Content

/-- The functions applied to the results of displays: `serialize`, the truth value, and `inspect.cleandoc`.  Used for core.py 442. -/
structure Data (δ : Type) where
  ser : δ → Except PyErr δ
  truthy : δ → Bool
  clean : δ → Except PyErr δ

/-- `DisplayObject`: displays.py 87-97.  `failed` if the traceback is not empty.  The name is always empty. -/
structure Shown (δ : Type) where
  type : String
  data : Option δ
  path : String
  failed : Bool
deriving DecidableEq

variable {δ : Type}

/-- `attrmethod_getter(self, method)(**arguments)`: core.py 437, breakdown.py 14-31.  An object has no attribute of empty name.
Simplification: the method has no dot or parenthesis in its name. -/
def Obj.get (o : Obj δ) (method : String) : Except PyErr (Option δ) :=
  if method = "" then .error .attributeError else o.call method

/-- `serialize(display) if display_setting.serialize_data else display`: core.py 442. -/
def serialized (D : Data δ) (s : Display) : Option δ → Except PyErr (Option δ)
  | none => .ok none
  | some d => if s.serializeData then match D.ser d with
      | .error e => .error e
      | .ok d => .ok (some d)
    else .ok (some d)

/-- `DisplayObject.__init__`: displays.py 87-100. -/
def mkShown (D : Data δ) (type : String) (data : Option δ) (path : String) (failed : Bool) : Except PyErr (Shown δ) :=
  match data with
  | none => .ok ⟨type, none, path, failed⟩
  | some d => if D.truthy d && type == "markdown" then match D.clean d with
      | .error e => .error e
      | .ok d => .ok ⟨type, some d, path, failed⟩
    else .ok ⟨type, some d, path, failed⟩

/-- The display of a setting: core.py 435-444. -/
def showSetting (D : Data δ) (o : Obj δ) (s : Display) : Except PyErr (Shown δ) :=
  match o.get s.method with
  | .ok d => match serialized D s d with
    | .error e => .error e
    | .ok d => mkShown D s.type d s.referencePath false
  | .error _ => match serialized D s none with
    | .error e => .error e
    | .ok d => mkShown D s.type d s.referencePath true

/-- `_display_from_selector`: core.py 432-452. -/
def displayOf (D : Data δ) (o : Obj δ) (selector : Option String) : Except PyErr (Shown δ) :=
  match displaySettings o.cls with
  | .error e => .error e
  | .ok ss => match displayFromSelector ss selector with
    | .error e => .error e
    | .ok s => showSetting D o s

/-- The loop of `_displays`: core.py 457-459. -/
def displaysLoop (D : Data δ) (o : Obj δ) : List Display → Except PyErr (List (Shown δ))
  | [] => .ok []
  | s :: ss => match displayOf D o s.selector with
    | .error e => .error e
    | .ok d => match displaysLoop D o ss with
      | .error e => .error e
      | .ok ds => .ok (d :: ds)

/-- `_displays`: core.py 454-460. -/
def displays (D : Data δ) (o : Obj δ) : Except PyErr (List (Shown δ)) :=
  match displaySettings o.cls with
  | .error e => .error e
  | .ok ss => displaysLoop D o ss

/-! ### Exports -/

/-- `ExportFormat`: exports.py 37-58.  Those of objects have no arguments. -/
structure Format where
  selector : String
  extension : String
  method : String
  text : Bool
deriving DecidableEq, Repr

/-- The format of a decorated method: core.py 593-600. -/
def formatOf (f : Fn) : Except PyErr Format :=
  let m := f.attrs
  match m.extension, m.method, m.text with
  | some e, some n, some t => match m.selector with
    | some (some s) => .ok ⟨if s = "" then e else s, e, n, t⟩
    | _ => .ok ⟨e, e, n, t⟩
  | _, _, _ => .error .attributeError

/-- The formats of decorated methods: core.py 592-601. -/
def formatsOf : List Fn → Except PyErr (List Format)
  | [] => .ok []
  | f :: fs => match formatOf f with
    | .error e => .error e
    | .ok x => match formatsOf fs with
      | .error e => .error e
      | .ok xs => .ok (x :: xs)

/-- `_export_formats_from_decorators`: core.py 588-605. -/
def decoratedFormats (C : Class) : List String → Except PyErr (List Format)
  | [] => .ok []
  | d :: ds => match decoratedMethods C d with
    | .error e => .error e
    | .ok fs => match formatsOf fs with
      | .error e => .error e
      | .ok xs => match decoratedFormats C ds with
        | .error e => .error e
        | .ok r => .ok (xs ++ r)

/-- The formats of all objects before the decorated ones: core.py 609-611. -/
def genericFormats : List Format :=
  [⟨"json", "json", "save_to_stream", true⟩, ⟨"xlsx", "xlsx", "to_xlsx_stream", false⟩, ⟨"docx", "docx", "to_docx_stream", false⟩]

/-- The format of the archive: core.py 614. -/
def zipFormat : Format := ⟨"zip", "zip", "to_zip_stream", false⟩

/-- The formats of objects with CAD: core.py 742-744. -/
def formats3d : List Format :=
  [⟨"step", "step", "to_step_stream", true⟩, ⟨"stl", "stl", "to_stl_stream", false⟩, ⟨"html", "html", "to_html_stream", true⟩]

/-- `_export_formats`: core.py 607-615, and 739-746 for an object with CAD. -/
def exportFormats (C : Class) (physical : Bool) : Except PyErr (List Format) :=
  match decoratedFormats C exportDecorators with
  | .error e => .error e
  | .ok xs => .ok (genericFormats ++ xs ++ [zipFormat] ++ if physical then formats3d else [])

/-- What a stream holds after an export method wrote in it: TypeError if bytes are written in a text stream or conversely.
Used for core.py 619-632. -/
def writeTo (o : Obj δ) (method : String) (text : Bool) : Except PyErr Content :=
  match o.write method with
  | .error e => .error e
  | .ok (.text s) => if text then .ok (.text s) else .error .typeError
  | .ok (.bytes s) => if text then .error .typeError else .ok (.bytes s)

/-- The path of an exported file: core.py 621-622. -/
def exportPath (path extension : String) : String :=
  if ('.' :: extension.toList).isSuffixOf path.toList then path else path ++ "." ++ extension

/-- The loop of `save_export_to_file`: core.py 619-632: the path and the content of the file. -/
def saveLoop (o : Obj δ) (selector path : String) : List Format → Except PyErr (String × Content)
  | [] => .error .valueError
  | f :: fs => if f.selector = selector then match writeTo o f.method f.text with
      | .error e => .error e
      | .ok c => .ok (exportPath path f.extension, c)
    else saveLoop o selector path fs

/-- `save_export_to_file`: core.py 617-632. -/
def saveExport (o : Obj δ) (physical : Bool) (selector path : String) : Except PyErr (String × Content) :=
  match exportFormats o.cls physical with
  | .error e => .error e
  | .ok fs => saveLoop o selector path fs

/-- The loop of `zip_settings`: core.py 559-566: the names and contents of the streams. -/
def zipLoop (o : Obj δ) : List Format → Except PyErr (List (String × Content))
  | [] => .ok []
  | f :: fs => if f.extension ≠ "zip" then match writeTo o f.method f.text with
      | .error e => .error e
      | .ok c => match zipLoop o fs with
        | .error e => .error e
        | .ok r => .ok (("export." ++ f.extension, c) :: r)
    else zipLoop o fs

/-- `zip_settings`: core.py 556-566. -/
def zipSettings (o : Obj δ) (physical : Bool) : Except PyErr (List (String × Content)) :=
  match exportFormats o.cls physical with
  | .error e => .error e
  | .ok fs => zipLoop o fs

/-- What `to_zip_stream` returns: the archive, or the handle, now closed, of an entry of the archive.  Used for core.py 568-576. -/
inductive Returned | archive | entry (name : String)
deriving DecidableEq, Repr

/-- `to_zip_stream`: core.py 568-576, files.py 211-221: the entries of the archive, and what is returned. -/
def toZip (o : Obj δ) (physical : Bool) : Except PyErr (List (String × Content) × List Returned) :=
  match zipSettings o physical with
  | .error e => .error e
  | .ok es => .ok (es, [es.foldl (fun _ e => .entry e.1) .archive])

/-- What reading an entry of an archive by its name gives: the last one of this name (`zipfile`). (specification) -/
def readEntry (es : List (String × Content)) (name : String) : Option Content := es.reverse.lookup name

end DC.View
