import Verif.Filters.Model
/- Specification vocabulary for filters. -/
namespace DC

/-- The documented meaning of the comparison operators (core.py 837-844). -/
def Means (op : String) (a b : Rat) : Prop :=
  (op ∈ [">", "gt"] ∧ a > b) ∨ (op ∈ ["<", "lt"] ∧ a < b) ∨ (op ∈ [">=", "ge", "gte"] ∧ a ≥ b) ∨
  (op ∈ ["<=", "le", "lte"] ∧ a ≤ b) ∨ (op ∈ ["==", "eq"] ∧ a = b) ∨ (op ∈ ["!=", "ne"] ∧ a ≠ b)

/-- The number a value stands for in a comparison: an integer, a boolean (0 or 1), a float, or a measure with its value in base units. -/
inductive NumberIn : V → Rat → Prop
  | int (i : Int) : NumberIn (.int i) i
  | no : NumberIn (.bool false) 0
  | yes : NumberIn (.bool true) 1
  | flt (q : Rat) : NumberIn (.flt q) q
  | measure (c : String) (q : Rat) : NumberIn (.measure c q) q

/-- The object satisfies the filter: the number found at the attribute compares as announced with the bound, or what is
found is not a number and the filter asks for a difference. -/
def Sat (fuel : Nat) (f : PyFilter) (v : V) : Prop :=
  ∃ x, getPath fuel true v (filterPath f.attr) = .ok x ∧
    ((∃ a, NumberIn x a ∧ Means f.comparison a f.bound) ∨ ((∀ a, ¬ NumberIn x a) ∧ f.comparison ∈ ["!=", "ne"]))

end DC
