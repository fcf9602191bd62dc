import Verif.Util.PyList
import Verif.Util.Str
/-
Strings of annotations.  Source: dessia_common/schemas/core.py 500-1116 (serialized, annotation_from_serialized), 1183, 1241, 1326, 1382,
1424-1429, 1484-1489, 1509-1518, 1548-1553, 1629-1648, 1706-1770, 1855-1884; utils/helpers.py 65-80.
-/
namespace DC.Types

/-- The builtin types of `TYPING_EQUIVALENCES`: schemas/core.py 26. -/
inductive Builtin where
  | int | float | bool | str

/-- Generic types with a schema (`ORIGIN_TO_SCHEMA_CLASS`, schemas/core.py 1726-1735), and Subclass, which can be deserialized only. -/
inductive Gen where
  | list | iterator | tuple | dict | union | instanceOf | subclass | type | method | classMethod | attr | classAttr
  | cadView | plotData | markdown

/-- Annotations.  `cls n` is a class of full name `n`; `type` is `Type` without argument; `variadic t` is `Tuple[t, ...]`; `optional t` is
`Optional[t]`, that is `Union[t, None]`; `noneType` is the class of None; `literal` has string values only.
Simplifications: TypeVar and annotations without schema but classes are left out.  Used for schemas/core.py 1706-1724, 1781-1811. -/
inductive Ann where
  | builtin (b : Builtin)
  | cls (name : List Char)
  | any
  | type
  | noneType
  | gen (g : Gen) (args : List Ann)
  | variadic (t : Ann)
  | optional (t : Ann)
  | literal (values : List (List Char))

/-- The classes: which names can be imported, which classes have a schema (`custom_class_schema`, schemas/core.py 1798-1811). -/
structure Names where
  importable : List Char → Bool
  supported : List Char → Bool

/-- `annotation.__name__` of builtins: schemas/core.py 803. -/
def Builtin.name : Builtin → List Char
  | .int => "int".toList | .float => "float".toList | .bool => "bool".toList | .str => "str".toList

/-- `origin.__name__`, capitalized for list, dict, tuple and type, and "Union": schemas/core.py 618-621, 996. -/
def Gen.name : Gen → List Char
  | .list => "List".toList | .iterator => "Iterator".toList | .tuple => "Tuple".toList | .dict => "Dict".toList | .union => "Union".toList
  | .instanceOf => "InstanceOf".toList | .subclass => "Subclass".toList | .type => "Type".toList | .method => "MethodType".toList
  | .classMethod => "ClassMethodType".toList | .attr => "AttributeType".toList | .classAttr => "ClassAttributeType".toList
  | .cadView => "CadViewType".toList | .plotData => "PlotDataType".toList | .markdown => "MarkdownType".toList

mutual
/-- Whether `get_schema` raises NotImplementedError on the annotation or an argument: schemas/core.py 1706-1724, 1781-1811. -/
def noSchema (W : Names) : Ann → Bool
  | .cls n => !W.supported n
  | .gen .subclass _ => true
  | .gen _ args => noSchemaAll W args
  | .variadic t => noSchema W t
  | .optional t => noSchema W t
  | _ => false
/-- One of the annotations has no schema. (specification) -/
def noSchemaAll (W : Names) : List Ann → Bool
  | [] => false
  | a :: as => noSchema W a || noSchemaAll W as
end

/-- The separator of arguments: ", ", or "," once spaces are removed.
Used for schemas/core.py 515-520, 616-624, 714-716, 803, 839, 895, 944, 996, 1097-1101. -/
def sep (space : Bool) : List Char := if space then [',', ' '] else [',']

/-- `str(Any)`.  Used for schemas/core.py 515-520, 616-624, 714-716, 803, 839, 895, 944, 996, 1097-1101. -/
def anyName : List Char := "typing.Any".toList
/-- The string of NoneType: schemas/core.py 1598. -/
def noneName : List Char := "typing.Type".toList
/-- The string of `Type`.  Used for schemas/core.py 515-520, 616-624, 714-716, 803, 839, 895, 944, 996, 1097-1101. -/
def typeName : List Char := "Type".toList
/-- "Tuple": schemas/core.py 1100. -/
def tupleName : List Char := "Tuple".toList
/-- "Literal": schemas/core.py 1632. -/
def literalName : List Char := "Literal".toList

mutual
/-- `serialized` of the schema of an annotation: schemas/core.py 515-520, 616-624, 714-716, 803, 839, 895, 944, 996, 1097-1101,
1594-1598, 1629-1632, 1829-1831.  `space = true` is what the code does; `space = false` is the same without spaces. -/
def ser (space : Bool) : Ann → List Char
  | .builtin b => b.name
  | .cls n => n
  | .any => anyName
  | .type => typeName
  | .noneType => noneName
  | .gen g [] => g.name
  | .gen g (a :: as) => g.name ++ ('[' :: (Str.join (sep space) (serAll space (a :: as)) ++ [']']))
  | .variadic t => tupleName ++ ('[' :: ((ser space t ++ sep space ++ ['.', '.', '.']) ++ [']']))
  | .optional t => ser space t
  | .literal vs => literalName ++ ('[' :: (('\'' :: (Str.join ('\'' :: (sep space ++ ['\''])) vs ++ ['\''])) ++ [']']))
/-- The strings of arguments.  Used for schemas/core.py 515-520, 616-624, 714-716, 803, 839, 895, 944, 996, 1097-1101. -/
def serAll (space : Bool) : List Ann → List (List Char)
  | [] => []
  | a :: as => ser space a :: serAll space as
end

/-- `serialize_annotation`: schemas/core.py 1748-1752. -/
def serialize (W : Names) (a : Ann) : Except PyErr (List Char) :=
  if noSchema W a then .error .notImplemented else .ok (ser true a)

/-- `string.replace(" ", "")`.  Used for schemas/core.py 1855-1884. -/
def strip (s : List Char) : List Char := s.filter (· ≠ ' ')

/-- The loop of `extract_args`, with the numbers of opened and closed brackets: schemas/core.py 1862-1884. -/
def extractLoop : Nat → Nat → List Char → List (List Char) → List Char → List (List Char)
  | _, _, cur, args, [] => if cur = [] then args else args ++ [cur]
  | o, c, cur, args, ch :: rest =>
    let o' := if ch = '[' then o + 1 else o
    let c' := if ch = ']' then c + 1 else c
    if c' = o' ∧ ch = ',' then extractLoop o' c' [] (args ++ [cur]) rest else extractLoop o' c' (cur ++ [ch]) args rest

/-- `extract_args`: schemas/core.py 1855-1884. -/
def extractArgs (s : List Char) : List (List Char) := extractLoop 0 0 [] [] (strip s)

/-- What precedes the last occurrence of a character.  Used for schemas/core.py 585, 647, 653. -/
def beforeLast (c : Char) : List Char → Option (List Char)
  | [] => none
  | d :: s =>
    match beforeLast c s with
    | some p => some (d :: p)
    | none => if d = c then some [] else none

/-- `re.match(r"([^\[\]]*)\[(.*)\]", s).groups()`: schemas/core.py 585, 647, 653.  Simplification: no line break in `s`. -/
def matchTyping (s : List Char) : Option (List Char × List Char) :=
  match s.dropWhile fun c => c ≠ '[' && c ≠ ']' with
  | '[' :: rest => (beforeLast ']' rest).map fun inner => (s.takeWhile fun c => c ≠ '[' && c ≠ ']', inner)
  | _ => none

/-- What precedes the first occurrence of `sub`: `s.split(sub)[0]`.  Used for schemas/core.py 637-642, 657-662, 806-808, 1111-1118, 1645-1648. -/
def before (sub : List Char) : List Char → List Char
  | [] => []
  | c :: s => if sub.isPrefixOf (c :: s) then [] else c :: before sub s

/-- The schema classes of `SERIALIZED_TO_SCHEMA_CLASS`.  Used for schemas/core.py 1737-1745. -/
inductive Key where
  | builtin (b : Builtin)
  | literal
  | gen (g : Gen)

/-- `SERIALIZED_TO_SCHEMA_CLASS`: schemas/core.py 1737-1745. -/
def keys : List (List Char × Key) :=
  [("int".toList, .builtin .int), ("float".toList, .builtin .float), ("bool".toList, .builtin .bool), ("str".toList, .builtin .str),
   ("Tuple".toList, .gen .tuple), ("List".toList, .gen .list), ("Iterator".toList, .gen .iterator),
   ("Union".toList, .gen .union), ("Dict".toList, .gen .dict), ("InstanceOf".toList, .gen .instanceOf), ("Subclass".toList, .gen .subclass),
   ("MethodType".toList, .gen .method), ("ClassMethodType".toList, .gen .classMethod), ("Type".toList, .gen .type),
   ("AttributeType".toList, .gen .attr), ("ClassAttributeType".toList, .gen .classAttr), ("Literal".toList, .literal)]

/-- `get_python_class_from_class_name`: helpers.py 65-80.  Simplifications: a name without dot is a literal, not a class, on which
ValueError is raised; the cache of classes, which gives the same classes, is left out. -/
def resolve (W : Names) (s : List Char) : Except PyErr Ann :=
  if '.' ∉ s then .error .valueError
  else if s = anyName then .ok .any
  else if s = noneName then .ok .type
  else if W.importable s then .ok (.cls s) else .error .importError

mutual
/-- `T == U` on annotations (typing module): the arguments of unions and the values of literals are compared as sets.
Used for schemas/core.py 1016, 1118, 1183, 1241, 1326, 1382, 1427-1429, 1487-1489, 1550-1553. -/
def annEq : Ann → Ann → Bool
  | .builtin .int, .builtin .int | .builtin .float, .builtin .float | .builtin .bool, .builtin .bool | .builtin .str, .builtin .str => true
  | .cls n, .cls n' => n == n'
  | .any, .any | .type, .type | .noneType, .noneType => true
  | .gen .union ts, .gen .union us => annEach ts us && us.all (annSome ts)
  | .gen g ts, .gen g' us => g.name == g'.name && annEqAll ts us
  | .variadic t, .variadic u => annEq t u
  | .optional t, .optional u => annEq t u
  | .literal vs, .literal ws => vs.all (ws.contains ·) && ws.all (vs.contains ·)
  | _, _ => false
/-- Equality of argument tuples.  Used for schemas/core.py 1016, 1118, 1183, 1241, 1326, 1382, 1427-1429, 1487-1489, 1550-1553. -/
def annEqAll : List Ann → List Ann → Bool
  | [], [] => true
  | t :: ts, u :: us => annEq t u && annEqAll ts us
  | _, _ => false
/-- Each of the first annotations is equal to one of the second.  Used for schemas/core.py 1118. -/
def annEach : List Ann → List Ann → Bool
  | [], _ => true
  | t :: ts, us => us.any (annEq t) && annEach ts us
/-- One of the annotations is equal to `u`.  Used for schemas/core.py 1118. -/
def annSome : List Ann → Ann → Bool
  | [], _ => false
  | t :: ts, u => annEq t u || annSome ts u
end

/-- The arguments of a union, those of unions within being inserted in place (typing module).
Used for schemas/core.py 1016, 1118, 1183, 1241, 1326, 1382, 1427-1429, 1487-1489, 1550-1553. -/
def flatten : List Ann → List Ann
  | [] => []
  | .gen .union ts :: as => ts ++ flatten as
  | a :: as => a :: flatten as

/-- The first occurrences (typing module).  Used for schemas/core.py 1016, 1118, 1183, 1241, 1326, 1382, 1427-1429, 1487-1489, 1550-1553. -/
def dedup : List Ann → List Ann → List Ann
  | seen, [] => seen
  | seen, a :: as => if seen.any (fun b => annEq b a) then dedup seen as else dedup (seen ++ [a]) as

/-- `Union[args]` (typing module).  Used for schemas/core.py 1016, 1118, 1183, 1241, 1326, 1382, 1427-1429, 1487-1489, 1550-1553. -/
def mkUnion (args : List Ann) : Except PyErr Ann :=
  match dedup [] (flatten args) with
  | [] => .error .typeError
  | [a] => .ok a
  | as => .ok (.gen .union as)

/-- The annotation built from deserialized arguments: schemas/core.py 1016, 1118, 1183, 1241, 1326, 1382, 1427-1429, 1487-1489, 1550-1553.
Subscripting with a wrong number of arguments raises TypeError. -/
def mk : Gen → List Ann → Except PyErr Ann
  | .list, [t] => .ok (.gen .list [t])
  | .iterator, [t] => .ok (.gen .list [t])
  | .tuple, ts => .ok (.gen .tuple ts)
  | .dict, [k, v] => .ok (.gen .dict [k, v])
  | .union, ts => mkUnion ts
  | .type, [] => .ok .type
  | .type, [t] => .ok (.gen .type [t])
  | .instanceOf, [t] => .ok (.gen .instanceOf [t])
  | .subclass, [t] => .ok (.gen .subclass [t])
  | .method, [t] => .ok (.gen .method [t])
  | .classMethod, [t] => .ok (.gen .classMethod [t])
  | .attr, [t] => .ok (.gen .attr [t])
  | .classAttr, [t] => .ok (.gen .classAttr [t])
  | _, _ => .error .typeError

/-- `SERIALIZED_TO_SCHEMA_CLASS[typename].annotation_from_serialized` on a string with brackets, given the deserialization of
arguments: schemas/core.py 637-642, 657-662, 806-808, 1111-1118, 1645-1648. -/
def build (rec : List Char → Except PyErr Ann) (name raw : List Char) : Except PyErr Ann :=
  match keys.lookup name with
  | none => .error .keyError
  | some (.builtin _) => .error .keyError
  | some .literal => .ok (.literal (Str.split ',' (raw.filter (· ≠ '\''))))
  | some (.gen .tuple) =>
    if Str.isIn [',', '.', '.', '.'] raw then
      match rec (before [',', '.', '.', '.'] raw) with
      | .error e => .error e
      | .ok t => .ok (.variadic t)
    else
      match (extractArgs raw).mapM rec with
      | .error e => .error e
      | .ok args => mk .tuple args
  | some (.gen g) =>
    match (extractArgs raw).mapM rec with
    | .error e => .error e
    | .ok args => mk g args

/-- The case of a string without brackets: schemas/core.py 1768-1770, with no arguments. -/
def bare (W : Names) (s : List Char) : Except PyErr Ann :=
  match keys.lookup s with
  | some (.builtin b) => .ok (.builtin b)
  | some .literal => .ok (.literal [[]])
  | some (.gen .method) | some (.gen .classMethod) | some (.gen .attr) | some (.gen .classAttr) => .error .attributeError
  | some (.gen g) => mk g []
  | none => resolve W s

/-- `deserialize_annotation`: schemas/core.py 1762-1770.  The first argument bounds the depth of calls. -/
def desN (W : Names) : Nat → List Char → Except PyErr Ann
  | 0, _ => .error .recursionError
  | n + 1, s =>
    if '[' ∈ s then
      match matchTyping s with
      | none => .error .attributeError
      | some (name, inner) => build (desN W n) name (strip inner)
    else bare W s

/-- `deserialize_annotation`; the depth of calls is less than the number of characters.  schemas/core.py 1762-1770. -/
def deserialize (W : Names) (s : List Char) : Except PyErr Ann := desN W (s.length + 1) s

end DC.Types
