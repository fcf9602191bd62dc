/-
Values handled by dessia_common, as finite trees.

Sources modelled (paths relative to /repo):
* dessia_common/core.py 60-144        (class level configuration of a DessiaObject)
* dessia_common/serialization.py 29-48 (`_serializable_dict`)
* dessia_common/files.py 8-114, dessia_common/measures.py 13-35
-/
namespace DC

/-- Exceptions raised by the modelled code.  Python exceptions are values here.
Cites: dessia_common/errors.py and the builtin exceptions raised in the modelled functions.
Simplification: messages are dropped.  errors.py 1-47. -/
inductive PyErr where
  | typeError | valueError | keyError | indexError | attributeError | notImplemented
  | importError | workflowError
  | serializationError | runtimeError | extractionError | zeroDivision | recursionError | nameError | stopIteration | assertionError | syntaxError | osError
  deriving DecidableEq, Repr

/-- A dictionary key.  Models the keys accepted by /repo/dessia_common/utils/diff.py 204-229 and
serialization.py 81-83.  Simplification: keys are strings or integers (no tuple, float, bool or object key). -/
inductive Key where
  | str (s : String)
  | int (i : Int)
  deriving DecidableEq, Repr

/-- A Python value as seen by dessia_common.

* `obj c d`: a DessiaObject of (full) class name `c` and `__dict__` `d` (core.py 60-108);
* `measure c q`: a `Measure`, i.e. a float with a class (measures.py 13-35);
* `file b n t`: a `BinaryFile` (`b = true`) or `StringFile` with file name `n` and content `t` (files.py 8-114);
* `cls n`: a class object, designated by its full name;
* `other n`: any value of an other type (sets, bytes, functions...).

Simplifications: floats are exact rationals (no NaN, no infinity); values are trees: identity and mutation of shared
sub-objects is not represented (memo tables of the code are keyed by value equality, which is represented). -/
inductive V where
  | none
  | bool (b : Bool)
  | int (i : Int)
  | flt (q : Rat)
  | measure (c : String) (q : Rat)
  | str (s : String)
  | list (l : List V)
  | tuple (l : List V)
  | dict (d : List (Key × V))
  | obj (c : String) (d : List (Key × V))
  | cls (n : String)
  | file (bin : Bool) (name : String) (content : String)
  | other (n : Nat)
  deriving Repr

/-- Class level configuration of a DessiaObject class.
Cites: core.py 78-92 (`_non_data_eq_attributes`, `_non_data_hash_attributes`), serialization.py 32-33
(`_standalone_in_db`, `_non_serializable_attributes`), core.py 348-363 (constructor arguments, `class_argspec.args`),
serialization.py 278-287 (arguments whose annotation has origin `tuple`). -/
structure ClassInfo where
  initArgs : List String := []
  tupleArgs : List String := []
  nonSerializable : List String := []
  nonDataEq : List String := ["name"]
  nonDataHash : List String := ["name"]
  standalone : Bool := false
  deriving Repr

/-- The class environment: configuration of each class (by full name) and the subclass relation used by `isinstance`
(`sub c c'`: `c` is a strict subclass of `c'`).  Cites: core.py 60-92, utils/diff.py 104. -/
structure Env where
  info : String → ClassInfo
  sub : String → String → Bool := fun _ _ => false

/-- `_serializable_dict` keeps attribute `k`: serialization.py 46-47.  Attribute names are strings. -/
def serKeep (Γ : Env) (c : String) : Key → Bool
  | .str s => !((Γ.info c).nonSerializable.contains s) && !(s.toList.head? == some '_')
  | .int _ => false

/-- `_serializable_dict`: serialization.py 40-48. -/
def serializableDict (Γ : Env) (c : String) (d : List (Key × V)) : List (Key × V) :=
  d.filter (fun kv => serKeep Γ c kv.1)

/-- Attributes kept by `_data_eq_dict`: core.py 131-134. -/
def eqKeep (Γ : Env) (c : String) (k : Key) : Bool :=
  serKeep Γ c k && match k with
    | .str s => !(((Γ.info c).nonDataEq ++ ["package_version", "name"]).contains s)
    | .int _ => true

/-- Attributes kept by `_data_hash`: core.py 140-143. -/
def hashKeep (Γ : Env) (c : String) (k : Key) : Bool :=
  serKeep Γ c k && match k with
    | .str s => !(((Γ.info c).nonDataEq ++ (Γ.info c).nonDataHash ++ ["package_version", "name"]).contains s)
    | .int _ => true

/-- Keys of a dictionary, in insertion order. Models `dict.keys()`.  Part of Python (no code). -/
def keysOf (d : List (Key × V)) : List Key := d.map (·.1)

end DC
