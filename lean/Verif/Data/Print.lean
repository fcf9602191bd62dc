import Verif.Values.Basic
/-
Printing a dataset.  Source: dessia_common/datatools/dataset.py 186-262.
Strings are lists of characters; `str(dataset)` is the list of its lines, which the code joins with line breaks.
-/
namespace DC.Data

/-- Used for dataset.py 232-243. -/
abbrev Chars := List Char

/-- `" " * n`.  Used for dataset.py 232-243. -/
def spaces (n : Nat) : Chars := List.replicate n ' '

/-- `_printed_attributes`: dataset.py 208-211. -/
def printedAttributes (common : List String) : List String :=
  if "name" ∈ common then common else "name" :: common

/-- The width computations of `_print_titles`: dataset.py 232-243.  `cap` is `str.capitalize`; `odd` is the local variable
`odd_incr`, unbound until an attribute of at most ten characters is met, then kept from one attribute to the next. -/
def titleCell (cap : String → Chars) (odd : Option Nat) (attr : String) : Except PyErr (Option Nat × Chars) :=
  let n := attr.toList.length
  let (indentation, odd) := if n + 6 > 16 then (3, odd) else ((16 - n) / 2, some ((16 - n) % 2))
  match odd with
  | none => .error .nameError
  | some o => .ok (some o, spaces indentation ++ spaces o ++ cap attr ++ spaces indentation)

/-- The loop of `_print_titles`, returning the cells: dataset.py 225-244.  `attr_space` is the list of their lengths. -/
def titleCells (cap : String → Chars) : Option Nat → List String → Except PyErr (List Chars)
  | _, [] => .ok []
  | odd, attr :: attrs => do
    let (odd, cell) ← titleCell cap odd attr
    let cells ← titleCells cap odd attrs
    .ok (cell :: cells)

/-- Cells between bars: `"|" + cell` for each cell, `"|"` at the end (dataset.py 229-232, 243, 250-252, 262). -/
def row (cells : List Chars) : Chars := cells.flatMap (fun c => '|' :: c) ++ (if cells = [] then [] else ['|'])

/-- The cell of a value whose string is `v`, in a column of width `w`: dataset.py 256-262.  Simplification: `w` is supposed to be
at least 5 (`titleCells` gives at least 16), so that slices have no negative bound. -/
def valueCell (w : Nat) (v : Chars) : Chars :=
  let s := spaces (max (w - v.length - 1) 1) ++ v.take (w - 4)
  if v.length > w - 3 then s.dropLast ++ "... ".toList
  else if v.length = w - 3 then s ++ (v.drop (v.length - 1)).take 1 ++ [' ']
  else s ++ [' ']

variable {ω : Type}

/-- `_print_object(index, attr_space)`: dataset.py 246-263.  `shown o a` is the string of `_get_printed_value` (dataset.py
277-281), that is of the attribute `a` of the object `o`. -/
def printObject (shown : ω → String → Chars) (objects : List ω) (common : List String) (widths : List Nat) (index : Nat) : Except PyErr Chars :=
  match objects[index]? with
  | none => .error .indexError
  | some o => .ok (row (List.zipWith (fun w a => valueCell w (shown o a)) widths (printedAttributes common)))

/-- `_print_objects_slice(key, attr_space)` for a slice of `m` objects: dataset.py 213-218.  The objects printed are those of
the indices 0 to m - 1 of the whole dataset. -/
def printObjectsSlice (shown : ω → String → Chars) (objects : List ω) (common : List String) (widths : List Nat) (m : Nat) :
    Except PyErr (List Chars) :=
  (List.range m).mapM (printObject shown objects common widths)

/-- `__str__`: dataset.py 186-206, as a list of lines.  `prefixLine` is `_write_str_prefix` (dataset.py 220-223).  The slices
`[0:5]` and `[-5:len]` both have `min(5, len)` objects. -/
def strLines (cap : String → Chars) (shown : ω → String → Chars) (prefixLine : Chars) (objects : List ω) (common : List String) :
    Except PyErr (List Chars) :=
  if objects.length = 0 then .ok [prefixLine]
  else do
    let cells ← titleCells cap none (printedAttributes common)
    let widths := cells.map List.length
    let first ← printObjectsSlice shown objects common widths (min 5 objects.length)
    let hidden := objects.length - 10
    let message : List Chars :=
      if objects.length > 10 then
        [("+ ".toList ++ (toString hidden).toList ++ " undisplayed object".toList ++ List.replicate (min hidden 2 - 1) 's' ++ "...".toList)]
      else []
    let last ← if objects.length > 5 then printObjectsSlice shown objects common widths (min 5 objects.length) else .ok []
    .ok ([prefixLine, row cells, List.replicate (row cells).length '-'] ++ first ++ message ++ last)

end DC.Data
