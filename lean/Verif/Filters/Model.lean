import Verif.Values.Paths
/-
Filters on lists of objects.
Source: dessia_common/core.py 847-849, 880-954, 1043-1101.
-/
namespace DC

/-- The comparison functions of `_REAL_OPERATORS`: core.py 847-849. -/
inductive Cmp where
  | gt | lt | ge | le | eq | ne
  deriving DecidableEq, Repr

/-- `_REAL_OPERATORS`: core.py 847-849. -/
def realOperators : List (String × Cmp) :=
  [(">", .gt), ("<", .lt), (">=", .ge), ("<=", .le), ("==", .eq), ("!=", .ne), ("gt", .gt), ("lt", .lt), ("ge", .ge),
   ("le", .le), ("eq", .eq), ("ne", .ne), ("gte", .ge), ("lte", .le)]

/-- `_comparison_operator`: core.py 880-881; `none` is KeyError. -/
def cmpOf (s : String) : Option Cmp := realOperators.lookup s

/-- `DessiaFilter`: core.py 851-855.  Simplification: the bound is a number. -/
structure PyFilter where
  attr : String
  comparison : String
  bound : Rat
  deriving DecidableEq, Repr

/-- The number denoted by a value compared with a float (bools and ints included). Used at core.py 884. -/
def num? : V → Option Rat
  | .int i => some i
  | .bool b => some (b2i b)
  | .flt q => some q
  | .measure _ q => some q
  | _ => none

/-- `operator(value, bound)`: core.py 884.  A value which is not a number is not equal to the bound, and cannot be
ordered with it (TypeError). -/
def cmpEval (c : Cmp) (v : V) (b : Rat) : Except PyErr Bool :=
  match num? v with
  | some a => .ok (match c with
    | .gt => decide (b < a) | .lt => decide (a < b) | .ge => decide (b ≤ a) | .le => decide (a ≤ b)
    | .eq => decide (a = b) | .ne => decide (a ≠ b))
  | none => match c with
    | .eq => .ok false
    | .ne => .ok true
    | _ => .error .typeError

/-- The path `#/{attribute}`: core.py 884. -/
def filterPath (attr : String) : Path := "#" :: splitSlash attr

/-- One element of the generator of `_to_lambda`: core.py 883-885.  `fuel` is that of `getPath`. -/
def filterOne (fuel : Nat) (f : PyFilter) (v : V) : Except PyErr Bool :=
  match cmpOf f.comparison with
  | none => .error .keyError
  | some c => do
    let x ← getPath fuel true v (filterPath f.attr)
    cmpEval c x f.bound

/-- `DessiaFilter.get_booleans_index`: core.py 887-905. -/
def booleansIndex (fuel : Nat) (f : PyFilter) : List V → Except PyErr (List Bool)
  | [] => .ok []
  | v :: vs => do
    let b ← filterOne fuel f v
    let bs ← booleansIndex fuel f vs
    .ok (b :: bs)

/-- `itertools.compress`: core.py 928, 954. -/
def compress {α : Type} : List α → List Bool → List α
  | x :: xs, b :: bs => if b then x :: compress xs bs else compress xs bs
  | _, _ => []

/-- `DessiaFilter.booleanlist_to_indexlist`: core.py 907-928. -/
def toIndexList (bs : List Bool) : List Nat := compress (List.range bs.length) bs

/-- `DessiaFilter.apply`: core.py 930-954. -/
def filterApply {α : Type} (values : List α) (bs : List Bool) : List α := compress values bs

/-- `zip(*lists)` for two columns at a time: core.py 1044-1048. -/
def zipCons : List Bool → List (List Bool) → List (List Bool)
  | x :: xs, y :: ys => (x :: y) :: zipCons xs ys
  | _, _ => []

/-- `zip(*booleans_lists)`: core.py 1044-1048: nothing for no list, else tuples up to the shortest list. -/
def zipStar : List (List Bool) → List (List Bool)
  | [] => []
  | [l] => l.map (fun b => [b])
  | l :: rest => zipCons l (zipStar rest)

/-- `FiltersList.combine_booleans_lists`: core.py 1043-1049 (`bool(sum(...))` is true as soon as one is true). -/
def combine (ls : List (List Bool)) (op : String) : Except PyErr (List Bool) :=
  if op = "and" then .ok ((zipStar ls).map (fun t => t.all id))
  else if op = "or" then .ok ((zipStar ls).map (fun t => t.any id))
  else if op = "xor" then .ok ((zipStar ls).map (fun t => decide ((t.map (fun b => if b then 1 else 0)).sum ≠ 0)))
  else .error .notImplemented

/-- The loop of `FiltersList.get_booleans_index`: core.py 1070-1073. -/
def allBooleans (fuel : Nat) (fs : List PyFilter) (values : List V) : Except PyErr (List (List Bool)) :=
  match fs with
  | [] => .ok []
  | f :: rest => do
    let b ← booleansIndex fuel f values
    let bs ← allBooleans fuel rest values
    .ok (b :: bs)

/-- `FiltersList.apply`: core.py 1076-1101. -/
def filtersApply (fuel : Nat) (fs : List PyFilter) (op : String) (values : List V) : Except PyErr (List V) := do
  let bs ← allBooleans fuel fs values
  let b ← combine bs op
  .ok (filterApply values b)

end DC
