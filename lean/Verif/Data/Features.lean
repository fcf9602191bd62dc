import Verif.Values.Paths
/-
The vector features of a class, and the vector of an object.
Source: dessia_common/core.py 633-645, 1128-1142.
-/
namespace DC.Feat

/-- The annotation of a parameter of a constructor: a class with the names of its ancestors, itself included (`inspect.getmro`; a parameter
without annotation has the class `inspect._empty`), or something which is not a class, such as a string, `List[float]` or
`Optional[float]`: core.py 1134-1138. -/
inductive Ann where
  | cls (mro : List String)
  | notClass
  deriving DecidableEq, Repr

/-- A class.  `members` are its attributes and those of its ancestors which are not routines (`inspect.getmembers`, core.py 1130); those which
are properties are in `properties`, and are not numbers as members of the class.  `params` are the parameters of `__init__` with their
annotations (core.py 1134), `declared` is `_vector_features` (core.py 89). -/
structure Klass where
  members : List (String × V)
  properties : List String
  params : List (String × Ann)
  declared : Option (List String)

/-- `isinstance(attribute[1], (float, int, complex, bool))`: core.py 1133.  Simplification: no complex numbers. -/
def isNumber : V → Bool
  | .bool _ | .int _ | .flt _ | .measure _ _ => true
  | _ => false

/-- `not attribute[0].startswith('__') and not attribute[0].endswith('__')`: core.py 1131-1132. -/
def plainName (s : String) : Bool :=
  !(['_', '_'].isPrefixOf s.toList) && !(['_', '_'].isPrefixOf s.toList.reverse)

/-- The names of the numeric types: core.py 1138. -/
def numericTypes : List String := ["float", "int", "bool", "complex"]

/-- `type in inspect.getmro(param.annotation.__class__)` and `any(item in inspect.getmro(param.annotation) for item in …)`: core.py
1134-1138. -/
def numericAnn : Ann → Bool
  | .cls mro => numericTypes.any fun t => mro.contains t
  | .notClass => false

/-- `RESERVED_ARGNAMES`: schemas/core.py 25. -/
def reserved : List String := ["self", "cls", "progress_callback", "return"]

/-- `get_attribute_names`: core.py 1128-1140. -/
def attributeNames (K : Klass) : List String :=
  (K.members.filter fun m => plainName m.1 && isNumber m.2).map (·.1)
    ++ ((K.params.filter fun p => numericAnn p.2).map (·.1)).filter fun a => !reserved.contains a

/-- `vector_features`: core.py 640-645.  `base` is DessiaObject.  `list` of a set gives its elements in an order which is not specified, and
which changes from one run of Python to another for strings: `order` is this order. -/
def vectorFeatures (order : List String → List String) (base K : Klass) : List String :=
  match K.declared with
  | none => order (((attributeNames K).eraseDups).filter fun a => !(attributeNames base).contains a)
  | some fs => fs

/-- An object of a class: its attributes, and the values of the properties of its class.  Used for utils/helpers.py 127, 145. -/
structure Inst where
  attrs : List (String × V)
  props : List (String × V)

/-- What `getattr` finds by name on an object: the properties of the class first, then the attributes of the object, then those of its class.
Part of utils/helpers.py 127, 145. -/
def Inst.view (K : Klass) (o : Inst) : V :=
  .obj "" ((o.props.filter (fun p => K.properties.contains p.1) ++ o.attrs ++ K.members).map fun p => (Key.str p.1, p.2))

/-- `str.lower`: core.py 637.  Simplification: only the ASCII letters have capitals. -/
def lower (s : String) : String := String.ofList (s.toList.map Char.toLower)

/-- `to_vector`: core.py 633-638.  `fuel` is as for `getPath`. -/
def toVector (fuel : Nat) (order : List String → List String) (base K : Klass) (o : Inst) : Except PyErr (List V) :=
  (vectorFeatures order base K).mapM fun f => getPath fuel true (o.view K) (splitSlash (lower f))

end DC.Feat
