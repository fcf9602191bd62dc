import Verif.Values.Equality
/-
Serialization and deserialization of values, without emitting pointers.
Sources: dessia_common/serialization.py 35-124, 259-351; dessia_common/utils/types.py 24-53;
dessia_common/measures.py 18-27; dessia_common/utils/helpers.py 65-80.
-/
namespace DC

/-- What `get_python_class_from_class_name` (utils/helpers.py 65-80) returns for a class name, as far as
`dict_to_object` (serialization.py 308-333) is concerned: a class with the generic `dict_to_object`, a `Measure`
class with its own one (measures.py 22-27), or a class without `dict_to_object`.
Simplification: the other classes overriding `dict_to_object` (workflows...) are modelled separately. -/
inductive Kind where
  | generic
  | measure
  | plain
  deriving DecidableEq, Repr

/-- The Python world in which serialized data is read: class table (`Env`), the importable classes (`kind`), the
classes for which an annotation schema exists (schemas/core.py 1798-1811), the default values of constructor arguments,
and what `is_classname_transform` (utils/types.py 24-43) returns for a string: the imported object if it is truthy. -/
structure World extends Env where
  kind : String → Option Kind
  hasSchema : String → Bool := fun _ => true
  defaults : String → List (String × V) := fun _ => []
  resolve : String → Option V

/-- `dict.update` on one entry: an existing key keeps its place.  Used by `serialized_dict.update`
(serialization.py 59-63). -/
def dictSet {α : Type} (d : List (Key × α)) (k : Key) (v : α) : List (Key × α) :=
  match d with
  | [] => [(k, v)]
  | (k', v') :: rest => if k' = k then (k', v) :: rest else (k', v') :: dictSet rest k v

/-- `dict.update`: serialization.py 59-63. -/
def dictUpdate {α : Type} (d e : List (Key × α)) : List (Key × α) :=
  e.foldl (fun acc kv => dictSet acc kv.1 kv.2) d

/-- `is_jsonable` on an integer: `orjson.dumps` accepts integers of 64 bits only (utils/types.py 46-53). -/
def jsonInt (i : Int) : Bool := decide (-9223372036854775808 ≤ i ∧ i ≤ 18446744073709551615)

/-- `serialize_annotation` on a class object: schemas/core.py 1748-1752, 1700-1722 (builtins are written with their
short name, 801-803; other classes with their full name, 837-839, 893-895, 942-944; NotImplementedError when there is
no schema for the class, 1798-1811). -/
def annotationString (W : World) (n : String) : Except PyErr String :=
  if n = "builtins.int" then .ok "int"
  else if n = "builtins.float" then .ok "float"
  else if n = "builtins.bool" then .ok "bool"
  else if n = "builtins.str" then .ok "str"
  else if W.hasSchema n then .ok n
  else .error .notImplemented

mutual
/-- `serialize`: serialization.py 91-124, `to_dict(use_pointers=False)`: 50-64 (`base_dict` 35-38 updated with the
serialized attributes), `Measure.to_dict`: measures.py 18-20.
Simplifications: numpy scalars (110-113) and typing annotations (114) are not modelled; classes overriding `to_dict`
are not modelled here; strings are valid unicode. -/
def serialize (W : World) : V → Except PyErr V
  | .obj c d => do
    let s ← serializeD W (serKeep W.toEnv c) d
    .ok (.dict (dictUpdate [(.str "object_class", .str c)] s))
  | .dict d => do
    let s ← serializeD W (fun _ => true) d
    .ok (.dict s)
  | .list l => do
    let s ← serializeL W l
    .ok (.list s)
  | .tuple l => do
    let s ← serializeL W l
    .ok (.list s)
  | .file b n t => .ok (.file b n t)
  | .cls n => do
    let s ← annotationString W n
    .ok (.str s)
  | .measure c q => .ok (.dict [(.str "object_class", .str c), (.str "value", .flt q)])
  | .none => .ok .none
  | .bool b => .ok (.bool b)
  | .int i => if jsonInt i then .ok (.int i) else .error .serializationError
  | .flt q => .ok (.flt q)
  | .str s => .ok (.str s)
  | .other _ => .error .serializationError
/-- `serialize_sequence`: serialization.py 86-88. -/
def serializeL (W : World) : List V → Except PyErr (List V)
  | [] => .ok []
  | v :: vs => do
    let s ← serialize W v
    let r ← serializeL W vs
    .ok (s :: r)
/-- `serialize_dict`: serialization.py 81-83, fused with the filter of `_serializable_dict` (46-47). -/
def serializeD (W : World) (keep : Key → Bool) : List (Key × V) → Except PyErr (List (Key × V))
  | [] => .ok []
  | (k, v) :: kvs =>
    if keep k then do
      let s ← serialize W v
      let r ← serializeD W keep kvs
      .ok ((k, s) :: r)
    else serializeD W keep kvs
end

/-- A JSON pointer path, as the list of its segments.  The code handles strings such as `#/a/0`; a string and the list
of its parts between slashes determine each other.  Cites: serialization.py 342, utils/helpers.py 150. -/
abbrev Path := List String

/-- `str.split('/')` on characters: serialization.py 552, 562, 592. -/
def splitChars : List Char → List (List Char)
  | [] => [[]]
  | c :: cs =>
    if c = '/' then [] :: splitChars cs
    else match splitChars cs with
      | [] => [[c]]
      | h :: t => (c :: h) :: t

/-- `str.split('/')`: serialization.py 552, 562, 592. -/
def splitSlash (s : String) : Path := (splitChars s.toList).map String.ofList

/-- `str(key)` in a formatted path: serialization.py 282, 342, 506, 525. -/
def keyStr : Key → String
  | .str s => s
  | .int i => toString i

/-- `f'{path}/{key}'`: serialization.py 342, 525. -/
def Path.key (p : Path) (k : Key) : Path := p ++ splitSlash (keyStr k)

/-- `f'{path}/{index}'`: serialization.py 282, 506. -/
def Path.idx (p : Path) (i : Nat) : Path := p ++ [toString i]

/-- `pointers_memo`: the objects already read, by path.  Cites: serialization.py 301, 344-345, 664-673. -/
abbrev PMemo := List (Path × V)

/-- The call of the constructor, `class_(**subobjects)`: serialization.py 350.  The constructor takes the arguments
`initArgs` (some with a default value) and stores each of them in the attribute of the same name: contract of the
generic classes.  A missing argument without default raises TypeError. -/
def construct (defaults : List (String × V)) (sub : List (Key × V)) : List String → Except PyErr (List (Key × V))
  | [] => .ok []
  | a :: rest =>
    match sub.lookup (.str a) with
    | some v => do
      let r ← construct defaults sub rest
      .ok ((.str a, v) :: r)
    | none =>
      match defaults.lookup a with
      | some v => do
        let r ← construct defaults sub rest
        .ok ((.str a, v) :: r)
      | none => .error .typeError

/-- `class_(dict_["value"])` for a Measure: measures.py 22-27 (`float(...)`; KeyError without value).
Simplification: a string is refused with ValueError even if it holds a number. -/
def measureFrom (c : String) (d : List (Key × V)) : Except PyErr V :=
  match d.lookup (.str "value") with
  | none => .error .keyError
  | some (.flt q) => .ok (.measure c q)
  | some (.measure _ q) => .ok (.measure c q)
  | some (.int i) => .ok (.measure c i)
  | some (.bool b) => .ok (.measure c (b2i b))
  | some (.str _) => .error .valueError
  | some _ => .error .typeError

/-- The filter of the constructor arguments, serialization.py 330 (`self` is left out). -/
def initKeep (Γ : Env) (c : String) : Key → Bool
  | .str s => (Γ.info c).initArgs.contains s
  | .int _ => false

/-- Whether the annotation of argument `k` of class `c` is a tuple: serialization.py 280, 284, 337-340. -/
def tupleArg (Γ : Env) (c : String) : Key → Bool
  | .str s => (Γ.info c).tupleArgs.contains s
  | .int _ => false

mutual
/-- `deserialize`: serialization.py 259-275, with the sequences of `deserialize_sequence` (278-287) and
`dict_to_object` (290-351) inlined; `tup` tells whether the annotation given has origin `tuple` (only the outermost
sequence of an argument gets the annotation: `args` of 281 is a Python tuple, not a typing).
`get_python_class_from_class_name` failing on `object_class` is `importError`. -/
def deser (W : World) (M : PMemo) (path : Path) (tup : Bool) : V → Except PyErr V
  | .dict d =>
    match M.lookup path with
    | some w => .ok w
    | none =>
      match d.lookup (.str "$ref") with
      | some (.str r) =>
        match M.lookup (splitSlash r) with
        | some w => .ok w
        | none => .error .runtimeError
      | some _ => .error .runtimeError
      | none =>
        match d.lookup (.str "object_class") with
        | none => do
          let s ← deserD W M path (fun _ => true) (fun _ => false) d
          .ok (.dict s)
        | some (.str c) =>
          match W.kind c with
          | none => .error .importError
          | some .measure => measureFrom c d
          | some .plain => do
            let _ ← deserD W M path (fun _ => true) (fun _ => false) d
            .error .typeError
          | some .generic => do
            let s ← deserD W M path (initKeep W.toEnv c) (tupleArg W.toEnv c) d
            let o ← construct (W.defaults c) s (W.info c).initArgs
            .ok (.obj c o)
        | some _ => .error .typeError
  | .list l =>
    match M.lookup path with
    | some w => .ok w
    | none => do
      let s ← deserL W M path 0 l
      .ok (if tup then .tuple s else .list s)
  | .tuple l =>
    match M.lookup path with
    | some w => .ok w
    | none => do
      let s ← deserL W M path 0 l
      .ok (if tup then .tuple s else .list s)
  | .str s =>
    match M.lookup path with
    | some w => .ok w
    | none =>
      match W.resolve s with
      | some w => .ok w
      | none => .ok (.str s)
  | v =>
    match M.lookup path with
    | some w => .ok w
    | none => .ok v
/-- The elements of `deserialize_sequence`: serialization.py 281-282. -/
def deserL (W : World) (M : PMemo) (path : Path) (i : Nat) : List V → Except PyErr (List V)
  | [] => .ok []
  | v :: vs => do
    let s ← deser W M (path.idx i) false v
    let r ← deserL W M path (i + 1) vs
    .ok (s :: r)
/-- The loop of `dict_to_object` on `init_dict`: serialization.py 330, 335-348. -/
def deserD (W : World) (M : PMemo) (path : Path) (keep : Key → Bool) (tup : Key → Bool) :
    List (Key × V) → Except PyErr (List (Key × V))
  | [] => .ok []
  | (k, v) :: kvs =>
    if keep k then do
      let s ← deser W M (path.key k) (tup k) v
      let r ← deserD W M path keep tup kvs
      .ok ((k, s) :: r)
    else deserD W M path keep tup kvs
end

end DC
