import Verif.Values.Pointers
/-
Reading of the arguments of a method from a document.
Sources: dessia_common/serialization.py 66-73, 372-477; dessia_common/core.py 190-214; utils/types.py 24-43.
-/
namespace DC.Arg

/-- The keys of TYPING_EQUIVALENCES: schemas/core.py 26. -/
inductive Builtin where
  | int
  | float
  | bool
  | str
  deriving DecidableEq, Repr

/-- Annotations of arguments.  `cls` is a subclass of SerializableObject, `measure` a subclass of Measure, `file` a subclass of
BinaryFile (`true`) or StringFile, `classType` is `typing.Type` without argument, `literal` holds the listed values, `ellipsis`
is the second argument of `Tuple[t, ...]`, `typing` is any other typing with an origin and arguments (MethodType, Type[t]...), and
`plain` any other class.  Simplifications: TextIO, BinaryIO and unsubscripted generics are left out; the members of a union are
flat, as the typing module makes them.  Used for serialization.py 398-399. -/
inductive Ann where
  | builtin (b : Builtin)
  | any
  | noneType
  | ellipsis
  | cls (c : String)
  | measure (c : String)
  | file (bin : Bool)
  | classType
  | plain (c : String)
  | list (t : Ann)
  | iterator (t : Ann)
  | tuple (ts : List Ann)
  | dict (k v : Ann)
  | union (ts : List Ann)
  | instanceOf (c : String)
  | literal (vs : List V)
  | typing (origin : String)

/-- `[f(x) for x in l]`, with the exceptions of `f`.  Used for serialization.py 385-404. -/
def mapE {α β : Type} (f : α → Except PyErr β) : List α → Except PyErr (List β)
  | [] => .ok []
  | x :: l => do
    let y ← f x
    let r ← mapE f l
    .ok (y :: r)

/-- The first two tests of `deserialize_argument`, `argument is None` and `isinstance(argument, SerializableObject)`:
serialization.py 437-441. -/
def passes : V → Bool
  | .none => true
  | .obj _ _ => true
  | _ => false

/-- The key of a dictionary, as a value.  Used for serialization.py 408, 414. -/
def keyV : Key → V
  | .str s => .str s
  | .int i => .int i

/-- `for arg in argument`: serialization.py 408, 414.  A string gives its characters, a dictionary its keys.
Simplification: the lines of a file are left out. -/
def items : V → Except PyErr (List V)
  | .list l => .ok l
  | .tuple l => .ok l
  | .str s => .ok (s.toList.map fun c => .str (String.singleton c))
  | .dict d => .ok (d.map fun e => keyV e.1)
  | _ => .error .typeError

/-- `class_.dict_to_object(argument)` for a subclass of SerializableObject which does not override it: serialization.py 66-73,
290-351.  The class given is used when the document names none, as if it named this one.  A search for pointers which does not end
is a recursionError here.  Simplification: the exception raised on a sequence or a string does not depend on what it
holds. -/
def readObject (W : World) (fuel : Nat) (c : String) : V → Except PyErr V
  | .dict d =>
    let d' := match d.lookup (.str "object_class") with
      | some _ => d
      | none => d ++ [(.str "object_class", .str c)]
    match loadDict W fuel d' with
    | .ok (some v) => .ok v
    | .ok none => .error .recursionError
    | .error e => .error e
  | .str _ => .error .attributeError
  | .list _ => .error .attributeError
  | .tuple _ => .error .attributeError
  | _ => .error .typeError

/-- `isinstance(argument, type_)`: serialization.py 456.  A bool is an int, a Measure is a float. -/
def isInstance : Builtin → V → Bool
  | .int, .int _ => true
  | .int, .bool _ => true
  | .float, .flt _ => true
  | .float, .measure _ _ => true
  | .bool, .bool _ => true
  | .str, .str _ => true
  | _, _ => false

/-- The case of builtins: serialization.py 455-462. -/
def readBuiltin (b : Builtin) (a : V) : Except PyErr V :=
  if isInstance b a then .ok a
  else match b, a with
    | .float, .int i => .ok (.flt i)
    | .float, .bool x => .ok (.flt (b2i x))
    | _, _ => .error .typeError

/-- `is_classname_transform`: utils/types.py 24-43.  `"." in argument` is a TypeError on a number and False on a sequence or a
dictionary without this element. -/
def classTransform (W : World) : V → Except PyErr V
  | .str s => match W.resolve s with
    | some w => .ok w
    | none => .ok (.bool false)
  | .list _ => .ok (.bool false)
  | .tuple _ => .ok (.bool false)
  | .dict _ => .ok (.bool false)
  | _ => .error .typeError

/-- `children_class.dict_to_object(argument, global_dict=...)` for a member of a union: serialization.py 398-399.  A Measure does
not take the other arguments (measures.py 22-27), other types have no such method. -/
def classRead (W : World) (fuel : Nat) : Ann → V → Except PyErr V
  | .cls c, a => readObject W fuel c a
  | .measure _, _ => .error .typeError
  | _, _ => .error .attributeError

/-- `len(cls.mro())`: serialization.py 388, with an AttributeError when there is no such method.  `mro` is a parameter: the number of
ancestors of each annotation. -/
def mroLen (mro : Ann → Option Nat) (t : Ann) : Except PyErr Nat :=
  match mro t with
  | some n => .ok n
  | none => .error .attributeError

/-- The position of the first of the greatest numbers: serialization.py 389-390. -/
def firstMax (l : List Nat) : Nat := l.idxOf (l.foldl max 0)

/-- The loop on the classes of a union: serialization.py 385-404.  `max` of an empty list is a ValueError.  The number is that of the
classes left. -/
def unionLoop (W : World) (fuel : Nat) (mro : Ann → Option Nat) (a : V) : Nat → List Ann → Except PyErr V
  | 0, _ => .error .valueError
  | n + 1, classes => do
    let lens ← mapE (mroLen mro) classes
    match classes[firstMax lens]? with
    | none => .error .valueError
    | some t => match classRead W fuel t a with
      | .error .keyError => unionLoop W fuel mro a n (classes.eraseIdx (firstMax lens))
      | r => r

/-- `t is type(None)`.  Used for serialization.py 379. -/
def isNoneType : Ann → Bool
  | .noneType => true
  | _ => false

/-- `len(args) == 2 and type(None) in args`: serialization.py 379. -/
def isOptional (ts : List Ann) : Bool := ts.length == 2 && ts.any isNoneType

/-- The flattened file of `deserialize_argument`, and the files: serialization.py 446-453. -/
def readFile : V → Except PyErr V
  | .list [a] => .ok a
  | .file b n t => .ok (.file b n t)
  | _ => .error .typeError

/-- A file is given back whatever the type, when the type is not a typing: serialization.py 452-453. -/
def unlessFile (a : V) (r : Except PyErr V) : Except PyErr V :=
  match a with
  | .file b n t => .ok (.file b n t)
  | _ => r

mutual
/-- `deserialize_argument`: serialization.py 435-477, with `deserialize_with_typing`: 372-432.
Simplification: an iterator is represented by the list of what it yields. -/
def deserArg (W : World) (fuel : Nat) (mro : Ann → Option Nat) : Ann → V → Except PyErr V
  | .list t, a => if passes a then .ok a else do
    let l ← items a
    let r ← mapE (fun x => deserArg W fuel mro t x) l
    .ok (.list r)
  | .iterator t, a => if passes a then .ok a else do
    let l ← items a
    let r ← mapE (fun x => deserArg W fuel mro t x) l
    .ok (.list r)
  | .tuple ts, a => if passes a then .ok a else do
    let l ← items a
    let r ← deserZip W fuel mro ts l
    .ok (.tuple r)
  | .dict _ _, a => .ok a
  | .union ts, a => if passes a then .ok a
    else if isOptional ts then deserFirst W fuel mro ts a
    else unionLoop W fuel mro a ts.length ts
  | .instanceOf c, a => if passes a then .ok a else readObject W fuel c a
  | .literal _, a => .ok a
  | .typing _, a => if passes a then .ok a else .error .notImplemented
  | .builtin b, a => if passes a then .ok a else unlessFile a (readBuiltin b a)
  | .any, a => .ok a
  | .cls c, a => if passes a then .ok a else unlessFile a (readObject W fuel c a)
  | .classType, a => if passes a then .ok a else unlessFile a (classTransform W a)
  | .measure _, a => .ok a
  | .file _, a => if passes a then .ok a else readFile a
  | .noneType, a => if passes a then .ok a else unlessFile a (.error .typeError)
  | .ellipsis, a => if passes a then .ok a else unlessFile a (.error .typeError)
  | .plain _, a => if passes a then .ok a else unlessFile a (.error .typeError)
/-- `tuple(deserialize_argument(t, arg) for (t, arg) in zip(args, argument))`: serialization.py 414. -/
def deserZip (W : World) (fuel : Nat) (mro : Ann → Option Nat) : List Ann → List V → Except PyErr (List V)
  | t :: ts, x :: l => do
    let y ← deserArg W fuel mro t x
    let r ← deserZip W fuel mro ts l
    .ok (y :: r)
  | _, _ => .ok []
/-- `deserialize_argument(type_=args[0], argument=argument)`: serialization.py 380. -/
def deserFirst (W : World) (fuel : Nat) (mro : Ann → Option Nat) : List Ann → V → Except PyErr V
  | [], _ => .error .indexError
  | t :: _, a => deserArg W fuel mro t a
end

/-! ### Arguments of a method -/

/-- `inspect.getfullargspec` of a method, and its annotations.  Used for core.py 202-213. -/
structure Spec where
  args : List String
  annotations : List (String × Ann)

/-- The loop of `dict_to_arguments`, from position `i` on: core.py 202-213.  The TypeError of the reading is raised again as a
TypeError. -/
def argsLoop (W : World) (fuel : Nat) (mro : Ann → Option Nat) (s : Spec) (d : List (String × V)) : Nat → List String →
    Except PyErr (List (String × V))
  | _, [] => .ok []
  | i, arg :: rest => match d.lookup (toString i) with
    | none => argsLoop W fuel mro s d (i + 1) rest
    | some value => match s.annotations.lookup arg with
      | none => .error .keyError
      | some t => do
        let v ← deserArg W fuel mro t value
        let r ← argsLoop W fuel mro s d (i + 1) rest
        .ok ((arg, v) :: r)

/-- `DessiaObject.dict_to_arguments`: core.py 190-214, without the cache. -/
def dictToArguments (W : World) (fuel : Nat) (mro : Ann → Option Nat) (s : Spec) (d : List (String × V)) :
    Except PyErr (List (String × V)) := argsLoop W fuel mro s d 0 (s.args.drop 1)

end DC.Arg
