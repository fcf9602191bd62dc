import Verif.Filters.Model
/-
Printing and comparing filters.
Source: dessia_common/core.py 857-878, 975-995.
-/
namespace DC.FPr

/-- A printed text.  Used for core.py 865-867. -/
abbrev Txt := List Char

/-- `" " * n`: core.py 865-867; nothing for a negative number. -/
def blanks (n : Int) : Txt := List.replicate n.toNat ' '

/-- `string_operator`: core.py 861-862. -/
def stringOperator : List (String × String) :=
  [(">", ">"), ("<", "<"), (">=", ">="), ("<=", "<="), ("==", "=="), ("!=", "!="), ("gt", ">"), ("lt", "<"), ("ge", ">="), ("le", "<="),
   ("eq", "=="), ("ne", "!="), ("gte", ">="), ("lte", "<=")]

/-- `DessiaFilter.__str__`: core.py 857-867.  `num` is `str` of a number. -/
def filterStr (num : Rat → Txt) (offsetAttr offsetBoun : Int) (f : PyFilter) : Except PyErr Txt :=
  let offsetBoun := if offsetBoun = 0 then ((num f.bound).length : Int) + 2 else offsetBoun
  match stringOperator.lookup f.comparison with
  | none => .error .keyError
  | some printed =>
    .ok (f.attr.toList ++ blanks (offsetAttr - f.attr.toList.length) ++ (printed.toList ++ blanks (0 - printed.toList.length))
      ++ (blanks (offsetBoun - (num f.bound).length) ++ num f.bound))

/-- `str(filter_)`: the offsets have their default values, core.py 857. -/
def filterStr0 (num : Rat → Txt) (f : PyFilter) : Except PyErr Txt := filterStr num 10 0 f

/-- `DessiaFilter.__eq__` with another filter: core.py 874-878. -/
def filterEq (f g : PyFilter) : Bool := f.attr == g.attr && f.comparison == g.comparison && f.bound == g.bound

/-- `DessiaFilter.__hash__`: core.py 868-872.  `hs` and `hn` are `hash` on strings and on numbers. -/
def filterHash (hs : String → Int) (hn : Rat → Int) (f : PyFilter) : Int := (f.attr.toList.length : Int) + hs f.comparison + hn f.bound

/-- `max` of lengths: core.py 984-985; ValueError if there are none. -/
def maxLen : List Nat → Except PyErr Nat
  | [] => .error .valueError
  | n :: ns => .ok (ns.foldl max n)

/-- The lines of the filters: core.py 989-992. -/
def filterLines (num : Rat → Txt) (oa ob : Int) : List PyFilter → Except PyErr Txt
  | [] => .ok []
  | f :: fs => do
    let t ← filterStr num oa ob f
    let rest ← filterLines num oa ob fs
    .ok ([' ', ' ', ' ', '-', ' '] ++ t ++ ['\n'] ++ rest)

/-- The text between the number of filters and the operator: core.py 987. -/
def combined : Txt := " filters combined with '".toList

/-- The end of the first line: core.py 987. -/
def operatorEnd : Txt := "' operator :\n".toList

/-- `FiltersList.__str__`: core.py 982-993.  `label` is the name of the list, or its address in memory if it has none; `nat` is the writing of an
integer. -/
def listStr (num : Rat → Txt) (nat : Nat → Txt) (cls label : Txt) (op : String) (fs : List PyFilter) : Except PyErr Txt := do
  let la ← maxLen (fs.map fun f => f.attr.toList.length)
  let lb ← maxLen (fs.map fun f => (num f.bound).length)
  let first := cls ++ [' '] ++ label ++ [':', ' '] ++ (nat fs.length ++ combined ++ op.toList ++ operatorEnd)
  let lines ← filterLines num (la + 2) (lb + 2) (fs.take 15)
  .ok (first ++ lines)

end DC.FPr
