import Verif.Types.Annot
/-
The former reading of the strings of annotations.
Source: dessia_common/utils/types.py 21, 128-232; schemas/core.py 1835-1839.
-/
namespace DC.Types

/-- `full_argname.split(', ')`.  Used for utils/types.py 187-201. -/
def splitArgs : List Char → List (List Char)
  | [] => [[]]
  | [c] => [[c]]
  | c :: d :: s =>
    if c = ',' ∧ d = ' ' then [] :: splitArgs s
    else match splitArgs (d :: s) with
      | [] => [[c]]
      | x :: xs => (c :: x) :: xs

/-- `SERIALIZED_BUILTINS` and `deserialize_builtin_typing`: utils/types.py 21, 222-232. -/
def oldBuiltins : List (List Char × Builtin) :=
  [("float".toList, .float), ("builtins.float".toList, .float), ("int".toList, .int), ("builtins.int".toList, .int),
   ("str".toList, .str), ("builtins.str".toList, .str), ("bool".toList, .bool), ("builtins.bool".toList, .bool)]

/-- The files and methods read by their names: utils/types.py 155-159, 204-219. -/
def oldNames : List (List Char) :=
  ["dessia_common.files.StringFile".toList, "dessia_common.files.BinaryFile".toList, "dessia_common.typings.MethodType".toList,
   "dessia_common.typings.ClassMethodType".toList]

/-- `TYPING_FROM_SERIALIZED_NAME`: utils/types.py 144. -/
def oldGenerics : List (List Char × Gen) :=
  [("List".toList, .list), ("Tuple".toList, .tuple), ("Iterator".toList, .iterator), ("Dict".toList, .dict)]

/-- The name of the builtins in `__builtins__`: utils/types.py 138. -/
def dunderBuiltins : List Char := "__builtins__".toList

/-- `type_from_argname`: utils/types.py 134-141. -/
def fromArg (W : Names) (n : List Char) : Except PyErr Ann :=
  if n = [] then .ok .any
  else if beforeLast '.' n = some dunderBuiltins then resolve W ("builtins".toList ++ n.drop dunderBuiltins.length)
  else resolve W n

/-- `deserialize_tuple_typing`: utils/types.py 187-201. -/
def oldTuple (W : Names) (full : List Char) : Except PyErr Ann :=
  match splitArgs full with
  | a :: b :: rest =>
    if (b :: rest).all (· == a) then
      match fromArg W a with
      | .error e => .error e
      | .ok t => .ok (.variadic t)
    else .error .typeError
  | _ => match fromArg W full with
    | .error e => .error e
    | .ok t => .ok (.gen .tuple [t])

/-- The end of `deserialize_typing`: utils/types.py 172-183. -/
def oldFlat (W : Names) (s top full : List Char) : Except PyErr Ann :=
  if top = Gen.list.name then match fromArg W full with
    | .error e => .error e
    | .ok t => .ok (.gen .list [t])
  else if top = Gen.tuple.name then oldTuple W full
  else if top = Gen.dict.name then match splitArgs full with
    | [] => .error .indexError
    | [k] => match fromArg W k with
      | .error e => .error e
      | .ok _ => .error .indexError
    | k :: v :: _ => match fromArg W k with
      | .error e => .error e
      | .ok k => match fromArg W v with
        | .error e => .error e
        | .ok v => .ok (.gen .dict [k, v])
  else if top = Gen.instanceOf.name then match fromArg W full with
    | .error e => .error e
    | .ok t => .ok (.gen .instanceOf [t])
  else resolve W s

/-- Subscripting a generic type with one argument; Dict needs two: utils/types.py 168. -/
def oldSubscript : Gen → Ann → Except PyErr Ann
  | .dict, _ => .error .typeError
  | g, t => .ok (.gen g [t])

/-- `deserialize_typing` on a string: utils/types.py 147-184.  The first argument bounds the depth of calls. -/
def oldN (W : Names) : Nat → List Char → Except PyErr Ann
  | 0, _ => .error .recursionError
  | n + 1, s =>
    match oldBuiltins.lookup s with
    | some b => .ok (.builtin b)
    | none =>
      if s ∈ oldNames then .ok (.cls s)
      else if s = typeName then .ok .type
      else if '[' ∈ s then
        let top := s.takeWhile (· ≠ '[')
        let remains := (s.dropWhile (· ≠ '[')).drop 1
        let full := (beforeLast ']' remains).getD remains
        if '[' ∈ full then
          match oldGenerics.lookup top with
          | none => .error .keyError
          | some g => match oldN W n full with
            | .error e => .error e
            | .ok t => oldSubscript g t
        else oldFlat W s top full
      else oldFlat W s s []

/-- `deserialize_typing`; the depth of calls is less than the number of characters.  utils/types.py 147-220. -/
def oldDeserialize (W : Names) (s : List Char) : Except PyErr Ann := oldN W (s.length + 1) s

end DC.Types
