import Mathlib.Algebra.Order.Group.Unbundled.Abs
import Verif.Data.Pareto
/-
Pareto frontiers.  Source: dessia_common/datatools/dataset.py 822-859.
Numbers are the elements of an ordered field: the rounding of floats is not modelled.
-/
namespace DC.Data

variable {F : Type} [Field F] [LinearOrder F]

/-- The element at `npy.argmin` of the values of `key`, the first of those where it is least: dataset.py 845, 856.  None for an empty
array, for which numpy raises a ValueError. -/
def best {α : Type} (key : α → F) : List α → Option α
  | [] => none
  | x :: l =>
    match best key l with
    | none => some x
    | some y => if key y < key x then some y else some x

/-- `array[:, k]` at one row: dataset.py 845-847.  Simplification: rectangular arrays are assumed, a missing cell is 0. -/
def cell (r : List F) (k : Nat) : F := r[k]?.getD 0

/-- `npy.min` of a column which is not empty: dataset.py 830. -/
def least (rows : List (List F)) (k : Nat) : F := (best id (rows.map (cell · k))).getD 0

/-- `npy.max` of a column which is not empty: dataset.py 836. -/
def greatest (rows : List (List F)) (k : Nat) : F := (best (fun x => -x) (rows.map (cell · k))).getD 0

/-- A frontier: its two ends, as (x, y).  Used for dataset.py 841-859. -/
abbrev Segment (F : Type) := (F × F) × (F × F)

/-- `_pareto_frontier_2d`: dataset.py 841-859.  `npy.max` of no direction is a ValueError (851); after 849 no row has the abscissa of
the least one, so that the assignment of 851 changes nothing. -/
def frontier2d (x y : Nat) (pareto : List (List F)) (maxX : F) (miniX miniY : F) : Except PyErr (Segment F) :=
  match best (cell · y) pareto with
  | none => .error .valueError
  | some p =>
    let dirs := (pareto.filter fun r => cell p x - cell r x ≠ 0).map fun r => (cell p y - cell r y) / (cell p x - cell r x)
    let lines := dirs.map fun a => (a, cell p y - a * cell p x)
    match best (fun l => |l.1 * miniX + l.2 - miniY|) lines with
    | none => .error .valueError
    | some l => .ok ((miniX, l.1 * miniX + l.2), (maxX, maxX * l.1 + l.2))

/-- The pairs of different dimensions, in the order of the loops: dataset.py 832-834. -/
def dimPairs (m : Nat) : List (Nat × Nat) :=
  (List.range m).flatMap fun x => ((List.range m).filter fun y => x ≠ y).map fun y => (x, y)

/-- `pareto_frontiers`: dataset.py 822-838.  `npy.min` of an empty array is a ValueError (830). -/
def paretoFrontiers (sd : List F → F) (n : Nat) (costs : List (List F)) : Except PyErr (List (Segment F)) :=
  match checkCosts n costs with
  | .error e => .error e
  | .ok [] => .error .valueError
  | .ok (r :: rows) =>
    let checked := r :: rows
    let pareto := compress checked (paretoIndexes sd checked)
    (dimPairs r.length).mapM fun xy => frontier2d xy.1 xy.2 pareto (greatest checked xy.1) (least checked xy.1) (least checked xy.2)

end DC.Data
