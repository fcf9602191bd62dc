import Verif.Schemas.Docstring
import Verif.Types.Args
import Verif.Values.Serialize
import Verif.Checks.Model
import Verif.Misc.Text
/-
Schemas of classes: forms, default values and checks.
Source: dessia_common/schemas/core.py 24-31, 83-228, 230-414, 495-1659, 1706-1835.
-/
namespace DC.Sch

open DC.Types (Ann Gen Builtin)

/-- What a class is a subclass of, in the order of the tests of `custom_class_schema`: schemas/core.py 1795-1808.  `text` is a subclass of
str, `other` any other class. -/
inductive Family where
  | measure | file | object | display | text | other
  deriving DecidableEq, Repr

/-- What is read of a class: the arguments of its constructor, their annotations, its docstring and `_non_editable_attributes`:
schemas/core.py 380-395. -/
structure ClassDef where
  spec : Types.ArgSpec V
  annotations : List (String × Ann)
  doc : Option (List Char)
  nonEditable : List String

/-- The classes. `unit` is `si_unit` of a Measure, `upper` is `str.upper` on a character.  Used for schemas/core.py 113-118. -/
structure Classes extends World where
  family : String → Family
  unit : String → String
  upper : Char → List Char
  define : String → ClassDef

/-- UNDEFINED: schemas/core.py 31.  A default value of a user is never this one. -/
def undefined : V := .other 0

/-- `SchemaAttribute`: schemas/core.py 83-127.  `default = none` is UNDEFINED. -/
structure Attr where
  name : String
  default : Option V
  title : String
  editable : Bool
  desc : String

/-- `title`: schemas/core.py 113-118. -/
def Attr.label (W : Classes) (a : Attr) : String :=
  if a.title = "" then String.ofList (Txt.prettyname W.upper a.name.toList) else a.title

/-- The attribute of an argument of a typing: schemas/core.py 601-608, 1079-1094. -/
def Attr.sub (W : Classes) (a : Attr) (i : Nat) : Attr :=
  ⟨a.name ++ "/" ++ toString i, none, a.label W ++ "/" ++ toString i, a.editable, ""⟩

/-- The classes with a schema: schemas/core.py 1795-1808. -/
def known (W : Classes) (n : List Char) : Bool :=
  match W.family (String.ofList n) with
  | .text | .other => false
  | _ => true

/-- `get_schema` returns: schemas/core.py 1706-1724, 1727-1736, 1781-1808; it raises NotImplementedError otherwise.  A generic type
without arguments is not considered a typing, but `Tuple[()]`. -/
def hasSchema (W : Classes) : Ann → Bool
  | .cls n => known W n
  | .gen .subclass _ => false
  | .gen .tuple [] => true
  | .gen _ [] => false
  | _ => true

mutual
/-- `get_schema` raises on the annotation or on one of those within, which `serialized` all gets: schemas/core.py 601-608, 616-624. -/
def lacks (W : Classes) : Ann → Bool
  | .gen .tuple [] => false
  | .gen .subclass _ => true
  | .gen _ [] => true
  | .gen _ (a :: as) => lacks W a || lacksAll W as
  | .variadic t => lacks W t
  | .optional t => lacks W t
  | .cls n => !known W n
  | _ => false
/-- One of the annotations has no schema. (specification) -/
def lacksAll (W : Classes) : List Ann → Bool
  | [] => false
  | a :: as => lacks W a || lacksAll W as
end

/-- `serialized`: schemas/core.py 515-520, 616-624, and others cited in Types/Annot.lean. -/
def serialized (W : Classes) (a : Ann) : Except PyErr String :=
  if lacks W a then .error .notImplemented else .ok (String.ofList (Types.ser true a))

/-- `full_classname(a, compute_for="class")` of a class: helpers.py 56-62; `none` for typings. -/
def className : Ann → Option String
  | .builtin .int => some "builtins.int"
  | .builtin .float => some "builtins.float"
  | .builtin .bool => some "builtins.bool"
  | .builtin .str => some "builtins.str"
  | .cls n => some (String.ofList n)
  | .noneType => some "builtins.NoneType"
  | _ => none

/-- The name of a subclass of CoreDessiaObject, which has `_standalone_in_db`: serialization.py 32; other types raise AttributeError. -/
def objectName (W : Classes) : Ann → Except PyErr String
  | .cls n => match W.family (String.ofList n) with
    | .object => .ok (String.ofList n)
    | _ => .error .attributeError
  | _ => .error .attributeError

/-! ### Default values -/

/-- The attributes of `MemberSchema.__init__` with their defaults, and their annotations, and the schemas of
`SchemaAttributeCollection.__init__`: schemas/core.py 132-143, 350-366.  The first exception met is raised. -/
def schemasOf (W : Classes) (annotations : List (String × Ann)) : List (String × Option V) → Except PyErr (List (String × Option V × Ann))
  | [] => .ok []
  | (n, d) :: as =>
    match annotations.lookup n with
    | none => .error .valueError
    | some t =>
      if hasSchema W t then
        match schemasOf W annotations as with
        | .error e => .error e
        | .ok r => .ok ((n, d, t) :: r)
      else .error .notImplemented

/-- `ClassSchema(class_)` returns: schemas/core.py 380-390. -/
def buildable (W : Classes) (c : String) : Except PyErr Unit :=
  match Types.memberAttributes (W.define c).spec with
  | .error e => .error e
  | .ok as => match schemasOf W (W.define c).annotations as with
    | .error e => .error e
    | .ok _ => .ok ()

/-- `object_default`: schemas/core.py 1811-1824.  A Measure has a `to_dict` without arguments.  Simplification: no other value than
objects has a `to_dict`. -/
def objectDefault (W : Classes) : Option V → Except PyErr V
  | none => .ok .none
  | some .none => .ok .none
  | some (.obj c d) => serialize W.toWorld (.obj c d)
  | some (.measure _ _) => .error .typeError
  | some _ => .error .attributeError

/-- `float(x)`; a string is refused with ValueError even if it holds a number, a simplification.  Used for schemas/core.py 857-868. -/
def toFloat : V → Except PyErr Rat
  | .flt q => .ok q
  | .measure _ q => .ok q
  | .int i => .ok i
  | .bool b => .ok (if b then 1 else 0)
  | .str _ => .error .valueError
  | _ => .error .typeError

/-- `Measure(x).to_dict()`: measures.py 18-20. -/
def measureDict (q : Rat) : V := .dict [(.str "object_class", .str "dessia_common.measures.Measure"), (.str "value", .flt q)]

/-- `default_value` of a measure: schemas/core.py 857-868.  `Measure.__class__` is `type`. -/
def measureDefault : Option V → Except PyErr V
  | none => .ok (.dict [(.str "object_class", .str "dessia_common.measures.type"), (.str "value", .none)])
  | some (.flt q) => .ok (measureDict q)
  | some (.measure _ q) => .ok (measureDict q)
  | some (.dict d) => match d.lookup (.str "value") with
    | none => .error .keyError
    | some x => match toFloat x with
      | .error e => .error e
      | .ok q => .ok (measureDict q)
  | some _ => .error .valueError

/-- `self.class_ is not Type and issubclass(self.class_, CoreDessiaObject)`: schemas/core.py 1456, 1566.  `issubclass` raises TypeError
on what is not a class. -/
def objectClass (W : Classes) : Ann → Except PyErr (Option String)
  | .type => .ok none
  | .cls n => match W.family (String.ofList n) with
    | .object => .ok (some (String.ofList n))
    | _ => .ok none
  | .builtin _ => .ok none
  | .noneType => .ok none
  | _ => .error .typeError

/-- `default_value` of a class: schemas/core.py 1561-1568.  Simplification: only classes have a `__name__`. -/
def classDefault (W : Classes) (arg : Ann) : Option V → Except PyErr V
  | some (.cls n) => .ok (.str n)
  | some _ => .error .attributeError
  | none => match objectClass W arg with
    | .error e => .error e
    | .ok none => .ok (.str "")
    | .ok (some n) => .ok (.str n)

/-- `default_value.to_dict()` of a method or an attribute: typings.py 44-48, 87-91; these are represented as objects with attributes
`class_` and `name`. Simplification: other values have no `to_dict`. -/
def methodDict : V → Except PyErr V
  | .obj c d => match d.lookup (.str "class_"), d.lookup (.str "name") with
    | some (.cls n), some m => .ok (.dict [(.str "class_", .str n), (.str "name", m), (.str "object_class", .str c)])
    | _, _ => .error .attributeError
  | _ => .error .attributeError

/-- `full_classname(self.origin, compute_for="class")` of the typings of typings.py: schemas/core.py 1438, 1459. -/
def originName (g : Gen) : String := "dessia_common.typings." ++ String.ofList g.name

/-- `default_value` of a method or an attribute: schemas/core.py 1451-1461. -/
def attrDefault (W : Classes) (g : Gen) (arg : Ann) : Option V → Except PyErr V
  | some v => methodDict v
  | none => match objectClass W arg with
    | .error e => .error e
    | .ok c => .ok (.dict [(.str "object_class", .str (originName g)),
        (.str "class_", match c with | none => .none | some n => .str n), (.str "name", .none)])

mutual
/-- `default_value` of the schema of an annotation: schemas/core.py 559-561, 817-821, 857-868, 962-964, 1030-1032, 1131-1139, 1205-1207,
1258-1260, 1350-1352, 1451-1461, 1561-1568.  `ClassSchema` of the class is built for objects. -/
def defaultValue (W : Classes) : Ann → Option V → Except PyErr V
  | .builtin _, d => .ok (d.getD .none)
  | .cls n, d => match W.family (String.ofList n) with
    | .measure => measureDefault d
    | .object => match buildable W (String.ofList n) with
      | .error e => .error e
      | .ok () => objectDefault W d
    | _ => .ok (d.getD undefined)
  | .any, d => .ok (d.getD undefined)
  | .noneType, d => .ok (d.getD undefined)
  | .literal _, d => .ok (d.getD undefined)
  | .optional _, d => .ok (d.getD undefined)
  | .type, d => classDefault W .type d
  | .variadic t, d => match d with
    | some v => .ok v
    | none => if hasSchema W t then
        match defaultValue W t none with
        | .error e => .error e
        | .ok v => .ok (.tuple [v])
      else .error .notImplemented
  | .gen .tuple ts, d => match d with
    | some v => .ok v
    | none => if ts.all (hasSchema W) then
        match defaultValues W ts with
        | .error e => .error e
        | .ok vs => .ok (.tuple vs)
      else .error .notImplemented
  | .gen .list _, _ => .ok .none
  | .gen .iterator _, _ => .ok .none
  | .gen .dict _, _ => .ok .none
  | .gen .union _, d => objectDefault W d
  | .gen .instanceOf [], _ => .error .indexError
  | .gen .instanceOf (a :: _), d => match objectName W a with
    | .error e => .error e
    | .ok c => match buildable W c with
      | .error e => .error e
      | .ok () => objectDefault W d
  | .gen .type [], _ => .error .indexError
  | .gen .type (a :: _), d => classDefault W a d
  | .gen .subclass _, _ => .error .notImplemented
  | .gen _ [], _ => .error .indexError
  | .gen g (a :: _), d => attrDefault W g a d
/-- The default values of the elements of a tuple: schemas/core.py 1139. -/
def defaultValues (W : Classes) : List Ann → Except PyErr (List V)
  | [] => .ok []
  | a :: as => match defaultValue W a none with
    | .error e => .error e
    | .ok v => match defaultValues W as with
      | .error e => .error e
      | .ok vs => .ok (v :: vs)
end

/-! ### Forms -/

mutual
/-- `is_file_related`: schemas/core.py 510-512, 611-613, 888-890, when no annotation within lacks a schema.  An optional property
takes the arguments of the annotation within, for which Ellipsis and the values of a literal have no schema: schemas/core.py 601-608,
699-702. -/
def fileRelated (W : Classes) : Ann → Except PyErr Bool
  | .cls n => .ok (decide (W.family (String.ofList n) = .file))
  | .gen _ as => fileAny W as
  | .variadic t => fileRelated W t
  | .optional (.gen _ as) => fileAny W as
  | .optional (.variadic _) => .error .notImplemented
  | .optional (.literal _) => .error .notImplemented
  | _ => .ok false
/-- `any(s.is_file_related for s in self.args_schemas)`: schemas/core.py 613. -/
def fileAny (W : Classes) : List Ann → Except PyErr Bool
  | [] => .ok false
  | a :: as => match fileRelated W a with
    | .error e => .error e
    | .ok true => .ok true
    | .ok false => fileAny W as
end

/-- `Property.to_dict`: schemas/core.py 551-557, with the attribute: 125-127. -/
def base (W : Classes) (a : Ann) (form : Except PyErr String) (at_ : Attr) : Except PyErr (List (Key × V)) :=
  match serialized W a with
  | .error e => .error e
  | .ok s => match form with
    | .error e => .error e
    | .ok f =>
      let dict := [(.str "pythonTyping", .str s), (.str "type", .none), (.str "formType", .str f), (.str "key", .str at_.name),
        (.str "title", .str (at_.label W)), (.str "editable", .bool at_.editable), (.str "description", .str at_.desc)]
      match at_.default with
      | none => .ok dict
      | some v => match defaultValue W a (some v) with
        | .error e => .error e
        | .ok d => .ok (dict ++ [(.str "defaultValue", d)])

/-- `chunk = super().to_dict(); chunk.update(more)`.  Used for schemas/core.py 1431-1449, 1491-1495, 1520-1524. -/
def withMore (chunk : Except PyErr (List (Key × V))) (more : Except PyErr (List (Key × V))) : Except PyErr V :=
  match chunk with
  | .error e => .error e
  | .ok c => match more with
    | .error e => .error e
    | .ok m => .ok (.dict (dictUpdate c m))

/-- `TYPING_EQUIVALENCES`: schemas/core.py 26. -/
def equivalence : Builtin → String
  | .int => "number" | .float => "number" | .bool => "boolean" | .str => "string"

/-- What the form of a class adds: schemas/core.py 1557, 1603. -/
def classMore : List (Key × V) :=
  [(.str "type", .str "object"), (.str "isClass", .bool true), (.str "properties", .dict [(.str "name", .dict [(.str "type", .str "string")])])]

/-- `[objectName(a) for a in args]`.  Used for schemas/core.py 1018-1028. -/
def objectNames (W : Classes) : List Ann → Except PyErr (List String)
  | [] => .ok []
  | a :: as => match objectName W a with
    | .error e => .error e
    | .ok n => match objectNames W as with
      | .error e => .error e
      | .ok ns => .ok (n :: ns)

/-- `standalone_in_db` of a union: schemas/core.py 1004-1011. -/
def unionStandalone (W : Classes) (ns : List String) : V :=
  if ns.all fun n => (W.info n).standalone then .bool true
  else if !ns.any fun n => (W.info n).standalone then .bool false
  else .none

/-- What the form of a union adds: schemas/core.py 1018-1028. -/
def unionMore (W : Classes) (ts : List Ann) : Except PyErr (List (Key × V)) :=
  match objectNames W ts with
  | .error e => .error e
  | .ok ns => .ok [(.str "type", .str "object"), (.str "classes", .list (ns.map .str)), (.str "standaloneInDb", unionStandalone W ns)]

/-- What the form of `InstanceOf[a]` adds: schemas/core.py 1334-1348. -/
def instanceMore (W : Classes) (a : Ann) : Except PyErr (List (Key × V)) :=
  match objectName W a with
  | .error e => .error e
  | .ok n => .ok [(.str "type", .str "object"), (.str "instanceOf", .str n), (.str "classes", .list [.str n]),
      (.str "standaloneInDb", .bool (W.info n).standalone)]

/-- "attributeType" of a method or an attribute: schemas/core.py 1434-1437, 1494, 1523. -/
def attributeType : Gen → String
  | .method => "methods" | .classMethod => "class_methods" | .classAttr => "class_attributes"
  | .cadView => "view_selectors" | .plotData => "view_selectors" | .markdown => "view_selectors"
  | _ => "attributes"

/-- "decorator" of a view: schemas/core.py 1523, typings.py 123-135. -/
def decorator : Gen → List (Key × V)
  | .cadView => [(.str "decorator", .str "cad_view")]
  | .plotData => [(.str "decorator", .str "plot_data_view")]
  | .markdown => [(.str "decorator", .str "markdown_view")]
  | _ => []

/-- A class as a value; typings are represented by some other value.  Used for schemas/core.py 1417-1421. -/
def classValue (a : Ann) : V := match className a with
  | some n => .cls n
  | none => .other 1

/-- `class_schema` of a method or an attribute: schemas/core.py 1417-1421. -/
def classSchemaAttr (at_ : Attr) (a : Ann) : Attr :=
  ⟨at_.name ++ "/class", match a with | .type => none | a => some (classValue a), "Class", at_.editable, ""⟩

/-- What the form of a method or an attribute of class `a` adds: schemas/core.py 1431-1449, 1491-1495, 1520-1524. -/
def attrMore (W : Classes) (g : Gen) (a : Ann) (at_ : Attr) : Except PyErr (List (Key × V)) :=
  match withMore (base W (.gen .type [a]) (.ok "class") (classSchemaAttr at_ a)) (.ok classMore) with
  | .error e => .error e
  | .ok c => .ok ([(.str "type", .str "object"), (.str "object_class", .str (originName g)), (.str "isAttribute", .bool true),
      (.str "attributeType", .str (attributeType g)),
      (.str "properties", .dict [(.str "class_", c), (.str "name", .dict [(.str "type", .str "string")])])] ++ decorator g)

/-- `form_type` of a sequence: schemas/core.py 1185-1189. -/
def listForm (W : Classes) (a : Ann) : Except PyErr String :=
  match fileRelated W a with
  | .error e => .error e
  | .ok true => .ok "multiple_files"
  | .ok false => .ok "homogeneous_sequence"

/-- What the form of a class of objects adds: schemas/core.py 956-960. -/
def customMore (W : Classes) (n : String) : List (Key × V) :=
  [(.str "type", .str "object"), (.str "standaloneInDb", .bool (W.info n).standalone), (.str "classes", .list [.str n])]

/-- `{"type": "array", "items": items}`, as an update: schemas/core.py 1202. -/
def itemsMore (items : Except PyErr V) : Except PyErr (List (Key × V)) :=
  match items with
  | .error e => .error e
  | .ok v => .ok [(.str "type", .str "array"), (.str "items", v)]

/-- What the form of a tuple adds: schemas/core.py 1128. -/
def tupleMore (additional : Bool) (items : Except PyErr (List V)) : Except PyErr (List (Key × V)) :=
  match items with
  | .error e => .error e
  | .ok vs => .ok [(.str "type", .str "array"), (.str "additionalItems", .bool additional), (.str "items", .list vs)]

/-- What the form of a dictionary adds: schemas/core.py 1252-1255. -/
def patternMore (value : Except PyErr V) : Except PyErr (List (Key × V)) :=
  match value with
  | .error e => .error e
  | .ok v => .ok [(.str "type", .str "object"), (.str "patternProperties", .dict [(.str ".*", v)])]

/-- The tests of `DynamicDict.to_dict`: schemas/core.py 1245-1250. -/
def dictTests : List Ann → Except PyErr Unit
  | [.builtin .str, .builtin _] => .ok ()
  | [.builtin .str, _] => .error .valueError
  | [_, _] => .error .notImplemented
  | _ => .error .valueError

/-- The form of a class of objects, of a measure, of a file or of a display: schemas/core.py 551-557, 851-855, 902-906, 956-960. -/
def clsForm (W : Classes) (n : List Char) (at_ : Attr) : Except PyErr V :=
  match W.family (String.ofList n) with
  | .measure => withMore (base W (.cls n) (.ok "measure") at_) (.ok [(.str "siUnit", .str (W.unit (String.ofList n))), (.str "type", .str "number")])
  | .file => withMore (base W (.cls n) (.ok "file") at_) (.ok [(.str "type", .str "text"), (.str "isFile", .bool true)])
  | .object => withMore (base W (.cls n) (.ok "custom_instance") at_) (.ok (customMore W (String.ofList n)))
  | .display => withMore (base W (.cls n) (.ok "not_implemented") at_) (.ok [])
  | _ => .error .notImplemented

mutual
/-- `to_dict` of the schema of an annotation: schemas/core.py 551-557, 709-711, 810-815, 851-855, 902-906, 956-960, 1023-1028, 1120-1129,
1191-1203, 1243-1256, 1343-1348, 1431-1449, 1491-1495, 1520-1524, 1555-1559, 1600-1604, 1613-1617, 1655-1659. -/
def toDict (W : Classes) : Ann → Attr → Except PyErr V
  | .optional t, at_ => toDict W t at_
  | .builtin b, at_ => withMore (base W (.builtin b) (.ok "builtin") at_)
      (.ok [(.str "type", .str (equivalence b)), (.str "formType", .str (equivalence b))])
  | .cls n, at_ => clsForm W n at_
  | .any, at_ => withMore (base W .any (.ok "not_implemented") at_)
      (.ok [(.str "properties", .dict [(.str ".*", .str ".*")]), (.str "type", .str "object")])
  | .noneType, at_ => withMore (base W .noneType (.ok "not_implemented") at_) (.ok classMore)
  | .type, at_ => withMore (base W .type (.ok "class") at_) (.ok classMore)
  | .literal vs, at_ => withMore (base W (.literal vs) (.ok "string") at_)
      (.ok [(.str "allowedValues", .tuple (vs.map fun v => .str (String.ofList v))), (.str "type", .str "string")])
  | .variadic t, at_ => withMore (base W (.variadic t) (.ok "heterogeneous_sequence") at_)
      (tupleMore true (match toDict W t (at_.sub W 0) with | .error e => .error e | .ok v => .ok [v]))
  | .gen .tuple ts, at_ => withMore (base W (.gen .tuple ts) (.ok "heterogeneous_sequence") at_) (tupleMore false (toDicts W at_ 0 ts))
  | .gen .list [], _ => .error .notImplemented
  | .gen .list (t :: ts), at_ => withMore (base W (.gen .list (t :: ts)) (listForm W (.gen .list (t :: ts))) at_)
      (itemsMore (toDict W t (at_.sub W 0)))
  | .gen .iterator [], _ => .error .notImplemented
  | .gen .iterator (t :: ts), at_ => withMore (base W (.gen .iterator (t :: ts)) (listForm W (.gen .iterator (t :: ts))) at_)
      (itemsMore (toDict W t (at_.sub W 0)))
  | .gen .dict [k, v], at_ => match dictTests [k, v] with
    | .error e => .error e
    | .ok () => withMore (base W (.gen .dict [k, v]) (.ok "dynamic_dict") at_) (patternMore (toDict W v (at_.sub W 1)))
  | .gen .dict _, _ => .error .valueError
  | .gen .union ts, at_ => withMore (base W (.gen .union ts) (.ok "custom_instance") at_) (unionMore W ts)
  | .gen .instanceOf [], _ => .error .notImplemented
  | .gen .instanceOf (a :: as), at_ => withMore (base W (.gen .instanceOf (a :: as)) (.ok "custom_instance") at_) (instanceMore W a)
  | .gen .type [], _ => .error .notImplemented
  | .gen .type (a :: as), at_ => withMore (base W (.gen .type (a :: as)) (.ok "class") at_) (.ok classMore)
  | .gen .subclass _, _ => .error .notImplemented
  | .gen _ [], _ => .error .notImplemented
  | .gen g (a :: as), at_ => withMore (base W (.gen g (a :: as)) (.ok "attribute") at_) (attrMore W g a at_)
/-- The forms of the elements of a tuple: schemas/core.py 1122-1127. -/
def toDicts (W : Classes) (at_ : Attr) : Nat → List Ann → Except PyErr (List V)
  | _, [] => .ok []
  | i, t :: ts => match toDict W t (at_.sub W i) with
    | .error e => .error e
    | .ok v => match toDicts W at_ (i + 1) ts with
      | .error e => .error e
      | .ok vs => .ok (v :: vs)
end

/-! ### Checks -/

/-- `has_one_arg`: schemas/core.py 669-676. -/
def hasOneArg (args : List Ann) : Check :=
  if args.length ≠ 1 then failedCheck "requires exactly 1 argument" else passedCheck "has exactly one argument"

/-- `has_no_default` of sequences and dictionaries: schemas/core.py 1215-1222, 1297-1304, from `default_value()`. -/
def hasNoDefault (v : V) : Check :=
  match v with
  | .none => passedCheck "no default"
  | .other 0 => passedCheck "no default"
  | _ => failedCheck "Mutable input defines a default value"

/-- `issubclass(key_type, str)`: schemas/core.py 1280. -/
def isStrClass (W : Classes) : Ann → Except PyErr Bool
  | .builtin .str => .ok true
  | .builtin _ => .ok false
  | .cls n => .ok (decide (W.family (String.ofList n) = .text))
  | .noneType => .ok false
  | _ => .error .typeError

/-- The checks of dictionaries: schemas/core.py 1262-1304. -/
def dictChecks (W : Classes) (d : V) : List Ann → Except PyErr (List Check)
  | [k, v] => match isStrClass W k with
    | .error e => .error e
    | .ok s => .ok [passedCheck "has two args", if s then passedCheck "has str keys" else failedCheck "requires str as its key type",
        match v with | .builtin _ => passedCheck "has simple values" | _ => failedCheck "requires a builtin type as its value type", hasNoDefault d]
  | _ => .error .valueError

/-- The checks of unions: schemas/core.py 1045-1058. -/
def unionChecks (W : Classes) (ts : List Ann) : Except PyErr (List Check) :=
  match objectNames W ts with
  | .error e => .error e
  | .ok ns =>
    .ok [match unionStandalone W ns with
      | .none => failedCheck "not consistent"
      | _ => passedCheck "consistent"]

/-- `check_list` of the schema of an annotation: schemas/core.py 568-574, 908-925, 966-982, 1034-1056, 1141-1165, 1209-1222, 1262-1305,
1354-1358, 1463-1470, 1570-1579.  Messages are shortened. -/
def checks (W : Classes) (a : Ann) (d : Option V) : Except PyErr (List Check) :=
  match a with
  | .cls n => match W.family (String.ofList n) with
    | .file => match d with
      | none => .ok [passedCheck "no default"]
      | some _ => .ok [checkWarning "File input defines a default value"]
    | .object => .ok [passedCheck "is a DessiaObject"]
    | _ => .ok []
  | .gen .union ts => unionChecks W ts
  | .gen .tuple ts => .ok [if ts.length = 0 then failedCheck "requires at least 1 argument" else passedCheck "has at least one argument",
      passedCheck "no ellipsis"]
  | .variadic _ => .ok [passedCheck "has at least one argument", passedCheck "ellipsis has two arguments"]
  | .gen .list ts | .gen .iterator ts => match defaultValue W a d with
    | .error e => .error e
    | .ok v => .ok [hasOneArg ts, hasNoDefault v]
  | .gen .dict ts => match defaultValue W a d with
    | .error e => .error e
    | .ok v => dictChecks W v ts
  | .gen .instanceOf ts => .ok [hasOneArg ts]
  | .gen .type ts => .ok [hasOneArg ts]
  | .type => .ok [hasOneArg []]
  | _ => .ok []

/-- The loop of `SchemaAttributeCollection.check_list`: schemas/core.py 172-175: what the variable `issues` of the method is bound to
in the end.  `CheckList` has no `__iadd__`, so that `issues += ...` binds it to a new list: checks.py 84-85. -/
def collectChecks (W : Classes) : List (Attr × Ann) → List Check → Except PyErr (List Check)
  | [], issues => .ok issues
  | (at_, t) :: rest, issues => match checks W t at_.default with
    | .error e => .error e
    | .ok cs => collectChecks W rest (checksAdd issues cs)

/-- `Schema.check_list`: schemas/core.py 291-302: the list given to the steps is returned; the one each step ends with is not. -/
def checkList (W : Classes) (steps : List (List (Attr × Ann))) (issues : List Check) : Except PyErr (List Check) :=
  match steps with
  | [] => .ok issues
  | s :: rest => match collectChecks W s issues with
    | .error e => .error e
    | .ok _ => checkList W rest issues

/-- `Schema.is_valid`: schemas/core.py 304-307. -/
def isValid (W : Classes) (steps : List (List (Attr × Ann))) : Except PyErr Bool :=
  match checkList W steps [] with
  | .error e => .error e
  | .ok cs => match checksAbove "error" cs with
    | .error e => .error e
    | .ok r => .ok r.isEmpty

/-! ### Schemas of classes -/

/-- `serialize_annotation(annotations[argname])`: schemas/core.py 1915-1916. -/
def docAnn (W : Classes) (annotations : List (String × Ann)) (n : List Char) : Except PyErr (List Char) :=
  match annotations.lookup (String.ofList n) with
  | none => .error .keyError
  | some a => match serialized W a with
    | .error e => .error e
    | .ok s => .ok s.toList

/-- `ClassSchema`: schemas/core.py 350-366, 380-390: its description and its attributes. -/
structure Schema where
  documentation : List Char
  attributes : List (Attr × Ann)

/-- `ClassSchema(class_)`: schemas/core.py 350-366, 380-390. -/
def classSchema (W : Classes) (c : String) : Except PyErr Schema :=
  let D := W.define c
  let doc := memberDoc (docAnn W D.annotations) D.doc
  match Types.memberAttributes D.spec with
  | .error e => .error e
  | .ok as => match schemasOf W D.annotations as with
    | .error e => .error e
    | .ok ps => .ok ⟨doc.description, ps.map fun p => (⟨p.1, p.2.1, "", true, String.ofList (describe doc p.1.toList)⟩, p.2.2)⟩

/-- The forms of attributes, in order: schemas/core.py 158-165, 177-178. -/
def properties (W : Classes) : List (Attr × Ann) → Except PyErr (List V)
  | [] => .ok []
  | (at_, t) :: rest => match toDict W t at_ with
    | .error e => .error e
    | .ok v => match properties W rest with
      | .error e => .error e
      | .ok vs => .ok (v :: vs)

/-- `ClassSchema.to_dict`: schemas/core.py 24, 177-178, 221-227, 265-270, 402-408.  `ids` are the two random identifiers of the step. -/
def classDict (W : Classes) (ids : String × String) (c : String) (s : Schema) : Except PyErr (List (Key × V)) :=
  match properties W s.attributes with
  | .error e => .error e
  | .ok vs => .ok [(.str "definitions", .dict []), (.str "$schema", .str "http://json-schema.org/draft-07/schema#"), (.str "type", .str "object"),
      (.str "steps", .list [.dict [(.str "properties", .list vs), (.str "displaySetting", .none), (.str "documentation", .str ""),
        (.str "label", .str ""), (.str "displayVariable", .none), (.str "group_id", .str ids.1), (.str "id", .str ids.2)]]),
      (.str "description", .str (String.ofList s.documentation)), (.str "spareProperties", .list []),
      (.str "classes", .list [.str c]), (.str "standaloneInDb", .bool (W.info c).standalone)]

/-- `Schema.default_dict`: schemas/core.py 272-279.  Simplification: the names of attributes, which are those of arguments, are distinct. -/
def defaultDict (W : Classes) : List (Attr × Ann) → Except PyErr (List (Key × V))
  | [] => .ok []
  | (at_, t) :: rest => match defaultValue W t at_.default with
    | .error e => .error e
    | .ok v => match defaultDict W rest with
      | .error e => .error e
      | .ok vs => .ok ((.str at_.name, v) :: vs)

/-- `ClassSchema.default_dict`: schemas/core.py 410-414. -/
def classDefaultDict (W : Classes) (c : String) (s : Schema) : Except PyErr (List (Key × V)) :=
  match defaultDict W s.attributes with
  | .error e => .error e
  | .ok d => .ok (dictSet d (.str "object_class") (.str c))

/-- `Schema.default_value`: schemas/core.py 281-289. -/
def declaredDefaults (W : Classes) (s : Schema) : Except PyErr (List (Key × V)) :=
  defaultDict W (s.attributes.filter fun p => p.1.default.isSome)

/-- `ClassSchema.editable_attributes`: schemas/core.py 369-370, 392-395. -/
def editableAttributes (W : Classes) (c : String) (s : Schema) : List String :=
  (s.attributes.map (·.1.name)).filter (· ∉ (W.define c).nonEditable)

end DC.Sch
