import Verif.Values.Pointers
/-
The type told for a value, and reading a value with its type.
-/
namespace DC

/-- What `recursive_type` tells: a name, a list, or `None`.  utils/types.py 277-294. -/
inductive RType where
  | none
  | name (s : String)
  | seq (l : List RType)

mutual
/-- `recursive_type`: utils/types.py 277-294.  A measure is a float whose class has no name in the table `TYPES_STRINGS` (17): KeyError.
Simplification: no value but those of the first cases has an attribute `output_type`. -/
def recType : V → Except PyErr RType
  | .int _ => .ok (.name "int")
  | .flt _ => .ok (.name "float")
  | .bool _ => .ok (.name "boolean")
  | .str _ => .ok (.name "str")
  | .dict _ => .ok (.name "dict")
  | .measure _ _ => .error .keyError
  | .obj c _ => .ok (.name c)
  | .list l => do
    let ts ← recTypeL l
    .ok (.seq ts)
  | .tuple l => do
    let ts ← recTypeL l
    .ok (.seq ts)
  | .none => .ok .none
  | .cls _ => .error .notImplemented
  | .file _ _ _ => .error .notImplemented
  | .other _ => .error .notImplemented
/-- The loop on the elements: utils/types.py 287-288. -/
def recTypeL : List V → Except PyErr (List RType)
  | [] => .ok []
  | v :: vs => do
    let t ← recType v
    let ts ← recTypeL vs
    .ok (t :: ts)
end

/-- The names of the table `TYPES_STRINGS`: utils/types.py 17. -/
def typeStrings : List String := ["int", "float", "boolean", "str", "list", "tuple", "dict"]

/-- `dict_to_object` of the class `c`: serialization.py 66-73.  The class written in the document comes first.
Simplification: a value which is not a dict is a TypeError. -/
def classRead (W : World) (fuel : Nat) (c : String) : V → Except PyErr (Option V)
  | .dict d => match d.lookup (.str "object_class") with
    | some _ => loadDict W fuel d
    | none => loadDict W fuel ((.str "object_class", .str c) :: d)
  | _ => .error .typeError

mutual
/-- `deserialize_with_type`: serialization.py 354-369.  `ast.literal_eval` reads no name: the names of the table are a ValueError.
Simplification: a name which is not that of a class is an ImportError; the value given for a list of types is a list or a tuple. -/
def deserWithType (W : World) (fuel : Nat) : RType → V → Except PyErr (Option V)
  | .name s, v =>
    if typeStrings.contains s then .error .valueError
    else match W.kind s with
      | none => .error .importError
      | some .plain => .error .attributeError
      | some _ => classRead W fuel s v
  | .seq ts, .list l => do
    let r ← deserWithTypes W fuel ts l
    .ok (r.map V.list)
  | .seq ts, .tuple l => do
    let r ← deserWithTypes W fuel ts l
    .ok (r.map V.list)
  | .seq _, _ => .error .typeError
  | .none, v => .ok (some v)
/-- The loop on `zip(type_, value)`: serialization.py 365.  `none`: a loop has not ended within `fuel` steps. -/
def deserWithTypes (W : World) (fuel : Nat) : List RType → List V → Except PyErr (Option (List V))
  | t :: ts, v :: vs => do
    let x ← deserWithType W fuel t v
    let xs ← deserWithTypes W fuel ts vs
    .ok (match x, xs with
      | some x, some xs => some (x :: xs)
      | _, _ => none)
  | _, _ => .ok (some [])
end

end DC
