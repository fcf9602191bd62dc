import Mathlib.Algebra.Order.Field.Basic
import Verif.Values.Basic
import Verif.Filters.Model
/-
Pareto points and Pareto sheets of a dataset.
Source: dessia_common/datatools/dataset.py 795-820, 861-902, metrics.py 134-144.
Numbers are the elements of an ordered field: the rounding of floats is not modelled.
-/
namespace DC.Data

variable {F : Type} [Field F] [LinearOrder F]

/-- `npy.mean` of a column (numpy); metrics.py 134-144 for lists. -/
def mean (v : List F) : F := v.sum / v.length

/-- `array[:, k]`, for a rectangular array: dataset.py 813. -/
def column {α : Type} (rows : List (List α)) (k : Nat) : List α := rows.filterMap (·[k]?)

/-- `(costs - npy.mean(costs, axis=0)) / npy.std(costs, axis=0)`: dataset.py 813.  `sd` is the standard deviation; NaN, which
is what numpy gives in a constant column, is `none`. -/
def scaled (sd : List F → F) (costs : List (List F)) : List (List (Option F)) :=
  costs.map fun row => row.zipIdx.map fun xk =>
    let col := column costs xk.2
    if sd col = 0 then none else some ((xk.1 - mean col) / sd col)

/-- `<` on floats: false as soon as a NaN is compared.  Used for dataset.py 817. -/
def ltNan : Option F → Option F → Bool
  | some a, some b => decide (a < b)
  | _, _ => false

/-- `npy.any(row < cost)`: dataset.py 817. -/
def anyLt (row cost : List (Option F)) : Bool := (row.zip cost).any fun p => ltNan p.1 p.2

/-- One iteration of the loop: dataset.py 814-819. -/
def paretoStep (rows : List (List (Option F))) (mask : List Bool) (index : Nat) : List Bool :=
  match mask[index]?, rows[index]? with
  | some true, some cost => (List.zipWith (fun row kept => kept && anyLt row cost) rows mask).set index true
  | _, _ => mask

/-- `pareto_indexes`: dataset.py 804-820. -/
def paretoIndexes (sd : List F → F) (costs : List (List F)) : List Bool :=
  (List.range costs.length).foldl (paretoStep (scaled sd costs)) (List.replicate costs.length true)

/-- `list(map(list, zip(*costs)))`, for a rectangular matrix: dataset.py 799. -/
def transpose {α : Type} (costs : List (List α)) : List (List α) :=
  match costs with
  | [] => []
  | r :: _ => (List.range r.length).map (column costs)

/-- `_check_costs`: dataset.py 795-802. -/
def checkCosts {α : Type} (n : Nat) (costs : List (List α)) : Except PyErr (List (List α)) :=
  if costs.length ≠ n then
    match costs with
    | [] => .error .indexError
    | r :: _ => if r.length = n then .ok (transpose costs) else .error .valueError
  else .ok costs

variable {ω : Type}

/-- The loop of `pareto_sheets`: dataset.py 894-902.  The two lists are compressed with the same mask. -/
def paretoLoop (sd : List F → F) : Nat → List (List F) → List ω → List (List ω) × List ω
  | 0, _, points => ([], points)
  | n + 1, costs, points =>
    let sheet := paretoIndexes sd costs
    let rest := paretoLoop sd n (compress costs (sheet.map not)) (compress points (sheet.map not))
    (compress points sheet :: rest.1, rest.2)

end DC.Data
