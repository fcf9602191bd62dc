import Mathlib.Data.List.Basic
/-
Finding a class from its full name, with the cache of the classes already found.
Sources: dessia_common/utils/helpers.py 19, 65-80; dessia_common/utils/types.py 24-43.
-/
namespace DC.Imp

/-- The exceptions which are told apart by types.py 41; all the others are `other`. -/
inductive Fail where
  | attributeError | typeError | moduleNotFound | syntaxError | other
  deriving DecidableEq, Repr

/-- The interpreter at the time of a call: what `import_module(m)` then `getattr(module, c)` give or raise (helpers.py 76-77),
and what `literal_eval` gives or raises (helpers.py 73).  `none` is Python's `None`.  Simplification: the effects of imports
other than what they give are left out. -/
structure Interp (C : Type) where
  member : List Char → List Char → Except Fail (Option C)
  literal : List Char → Except Fail (Option C)

/-- What calls change: `_PYTHON_CLASS_CACHE` (helpers.py 19), last entry first, and the recursion limit of the interpreter
(helpers.py 68). -/
structure Mem (C : Type) where
  cache : List (List Char × Option C) := []
  limit : Nat := 1000

/-- `name.rsplit(".", 1)` on a name with a dot: helpers.py 74. -/
def rsplit (name : List Char) : List Char × List Char :=
  (((name.reverse.dropWhile (· != '.')).drop 1).reverse, (name.reverse.takeWhile (· != '.')).reverse)

/-- `get_python_class_from_class_name`: helpers.py 65-80. -/
def findClass {C : Type} (P : Interp C) (s : Mem C) (name : List Char) : Mem C × Except Fail (Option C) :=
  let s := { s with limit := 3000 }
  match (s.cache.lookup name).join with
  | some c => (s, .ok (some c))
  | none =>
    if '.' ∉ name then (s, P.literal name)
    else
      let mc := rsplit name
      match P.member mc.1 mc.2 with
      | .error e => (s, .error e)
      | .ok x => ({ s with cache := (name, x) :: s.cache }, .ok x)

/-- The exceptions caught by `is_classname_transform`: types.py 41. -/
def caught : Fail → Bool
  | .attributeError | .typeError | .moduleNotFound | .syntaxError => true
  | .other => false

/-- `is_classname_transform`: types.py 24-43.  `none` is `False`. -/
def isClassname {C : Type} (P : Interp C) (s : Mem C) (text : List Char) : Mem C × Except Fail (Option (Option C)) :=
  if '.' ∈ text ∧ text.head? ≠ some '.' then
    match findClass P s text with
    | (s, .ok x) => (s, .ok (some x))
    | (s, .error e) => if caught e then (s, .ok none) else (s, .error e)
  else (s, .ok none)

/-- A call of one of the two functions: helpers.py 65, types.py 24. -/
inductive Call where
  | find (name : List Char)
  | text (text : List Char)

/-- The effect of a call: helpers.py 65-80, types.py 24-43. -/
def Call.after {C : Type} (P : Interp C) (s : Mem C) : Call → Mem C
  | .find name => (findClass P s name).1
  | .text t => (isClassname P s t).1

/-- The effect of calls made one after the other, each one with the interpreter as it is then: helpers.py 65-80,
types.py 24-43. -/
def afterAll {C : Type} : List (Interp C × Call) → Mem C → Mem C
  | [], s => s
  | (P, c) :: calls, s => afterAll calls (c.after P s)

end DC.Imp
