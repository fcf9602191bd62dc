import Verif.Util.PyDict
import Verif.Util.Str
/-
Breakdown of objects.
Source: dessia_common/breakdown.py 34-118 and 154-178.
-/
namespace DC.Brk

/-- Values as `breakdown` sees them (breakdown.py 51-118).  `leaf`: None, strings, numbers, arrays and whatever has no
`__dict__`.  An object is known by the name of its class, its equality class `κ` (the dictionaries are keyed by objects, hence
by `==` and `hash`; objects are supposed to be hashable), and its serializable attributes (serialization.py 40-48).  A set is
known by the order of its iteration. -/
inductive Node (κ : Type)
  | leaf
  | list (items : List (Node κ))
  | set (items : List (Node κ))
  | dict (items : List (List Char × Node κ))
  | obj (cls : String) (key : κ) (attrs : List (List Char × Node κ))

/-- A breakdown dictionary: class name, object, path.  Used for breakdown.py 37-47. -/
abbrev BD (κ : Type) := List (String × List (κ × List Char))

variable {κ : Type} [DecidableEq κ]

/-- `len(path.split('.'))`: breakdown.py 42. -/
def depth (path : List Char) : Nat := (Str.split '.' path).length

/-- One iteration of the inner loop: breakdown.py 40-45. -/
def mergeRef (inner : List (κ × List Char)) (ref : κ × List Char) : List (κ × List Char) :=
  match inner.lookup ref.1 with
  | some q => if depth ref.2 < depth q then Dict.set inner ref.1 ref.2 else inner
  | none => Dict.set inner ref.1 ref.2

/-- One iteration of the outer loop: breakdown.py 37-47. -/
def mergeClass (dict3 : BD κ) (cr : String × List (κ × List Char)) : BD κ :=
  match dict3.lookup cr.1 with
  | some inner => Dict.set dict3 cr.1 (cr.2.foldl mergeRef inner)
  | none => Dict.set dict3 cr.1 cr.2

/-- `merge_breakdown_dicts`: breakdown.py 34-48.  The inner dictionaries are shared with the arguments in the code and updated in
place; the model gives the returned value, the arguments being thrown away by every caller of the code. -/
def merge (dict1 dict2 : BD κ) : BD κ := dict2.foldl mergeClass dict1

/-- `if path: path += '.'`: breakdown.py 59-60, 66-67, 91-92. -/
def pref (path : List Char) : List Char := if path = [] then [] else path ++ ['.']

/-- The three passes on the attributes: breakdown.py 103, 109, 115. -/
def Node.pass : Node κ → Nat
  | .list _ => 1
  | .dict _ => 2
  | _ => 0

mutual
/-- `breakdown`: breakdown.py 51-86. -/
def breakdown : Node κ → List Char → BD κ
  | .leaf, _ => []
  | .list items, path => items' items (pref path) 0 []
  | .set items, path => items' items (pref path) 0 []
  | .dict items, path => entries items (pref path) []
  | .obj cls key attrs, path =>
    merge (if path = [] then [] else [(cls, [(key, path)])])
      (attributes attrs (pref path) 2 (attributes attrs (pref path) 1 (attributes attrs (pref path) 0 [])))
/-- The loop on a sequence: breakdown.py 62-64. -/
def items' : List (Node κ) → List Char → Nat → BD κ → BD κ
  | [], _, _, bd => bd
  | x :: l, path, i, bd => items' l path (i + 1) (merge bd (breakdown x (path ++ (toString i).toList)))
/-- The loop on a dictionary: breakdown.py 69-71. Keys are known by their `str`. -/
def entries : List (List Char × Node κ) → List Char → BD κ → BD κ
  | [], _, bd => bd
  | (k, x) :: l, path, bd => entries l path (merge bd (breakdown x (path ++ k)))
/-- One of the three loops on the attributes: breakdown.py 101-105, 107-111, 113-117. -/
def attributes : List (List Char × Node κ) → List Char → Nat → BD κ → BD κ
  | [], _, _, bd => bd
  | (k, x) :: l, path, n, bd =>
    attributes l path n (if x.pass = n then merge bd (breakdown x (path ++ k)) else bd)
end

/-- `object_breakdown(obj)` for the root object: breakdown.py 89-118. -/
def objectBreakdown (attrs : List (List Char × Node κ)) (path : List Char) : BD κ :=
  attributes attrs (pref path) 2 (attributes attrs (pref path) 1 (attributes attrs (pref path) 0 []))

/-- `subobjects_number_by_class` of `breakdown_analysis`: breakdown.py 156-164, 170. -/
def numbers (bd : BD κ) : List (String × Nat) := bd.map fun p => (p.1, p.2.length)

end DC.Brk
