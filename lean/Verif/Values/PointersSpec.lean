import Verif.Values.Pointers
/- Specification vocabulary for JSON pointers. -/
namespace DC

/-- The value `v`, found at path `p`, holds at path `q` a dictionary `{'$ref': r}` (references are not looked for
inside a reference). -/
inductive RefAt : Path → V → Path → V → Prop
  | here {p d r} : d.lookup (.str "$ref") = some r → RefAt p (.dict d) p r
  | dict {p d k w q r} : d.lookup (.str "$ref") = none → (k, w) ∈ d → RefAt (p.key k) w q r → RefAt p (.dict d) q r
  | list {p l w q r} {i : Nat} : l[i]? = some w → RefAt (p.idx i) w q r → RefAt p (.list l) q r
  | tuple {p l w q r} {i : Nat} : l[i]? = some w → RefAt (p.idx i) w q r → RefAt p (.tuple l) q r

/-- The reference is the root `#` or a path starting with `#/`. -/
def FromRoot (r : String) : Prop := r.toList = ['#'] ∨ ∃ cs, r.toList = '#' :: '/' :: cs

/-- A computation that is given more and more steps ends. -/
def Ends {α : Type} (f : Nat → Except PyErr (Option α)) : Prop := ∃ N, ∀ n, N ≤ n → ∀ e, f n = e → e ≠ .ok none

/-- `x` comes before `y` in the list. -/
def Before {α : Type} (l : List α) (x y : α) : Prop := List.Sublist [x, y] l

/-- What reading the element at `a` needs: `b` is the target of a reference at `a`, or `b` is `a` followed by one
segment and lies on the way to a reference or to the target of a reference. -/
inductive Needs (v : V) : Path → Path → Prop
  | target {p r} : RefAt ["#"] v p (.str r) → Needs v p (splitSlash r)
  | wayTo {p r a s b} : RefAt ["#"] v p r → p = a ++ s :: b → a ≠ [] → Needs v a (a ++ [s])
  | wayToTarget {p r a s b} : RefAt ["#"] v p (.str r) → splitSlash r = a ++ s :: b → a ≠ [] → Needs v a (a ++ [s])

end DC
