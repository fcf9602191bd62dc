import Mathlib.Analysis.Real.Sqrt
import Mathlib.Analysis.SpecialFunctions.Pow.Real
import Verif.Data.Pareto
/-
Norms, distances and moments.
Source: dessia_common/datatools/metrics.py.
Numbers are the elements of an ordered field, or reals where a root is taken: the rounding of floats is not modelled.
`mahalanobis_distance` is in Data/Mahalanobis.lean.
-/
namespace DC.Data

variable {F : Type} [Field F] [LinearOrder F]

/-- `diff_list`: metrics.py 7-20.  The longest list is cut. -/
def diffList (a b : List F) : List F := List.zipWith (· - ·) a b

/-- `l1_norm`: metrics.py 23-33. -/
def l1Norm (v : List F) : F := (v.map fun x => |x|).sum

/-- The sum under the root of `l2_norm`: metrics.py 47. -/
def sumSq (v : List F) : F := (v.map fun x => x * x).sum

/-- `l2_norm`: metrics.py 36-47. -/
noncomputable def l2Norm (v : List ℝ) : ℝ := Real.sqrt (sumSq v)

/-- `inf_norm`: metrics.py 66-76. `max` raises a ValueError on an empty sequence. -/
def infNorm : List F → Except PyErr F
  | [] => .error .valueError
  | x :: v => .ok ((v.map fun y => |y|).foldl max |x|)

/-- `manhattan_distance`: metrics.py 79-93. -/
def manhattan (a b : List F) : F := l1Norm (diffList a b)

/-- `euclidian_distance`: metrics.py 96-112. -/
noncomputable def euclidian (a b : List ℝ) : ℝ := l2Norm (diffList a b)

/-- `lp_norm`, which calls `npy.linalg.norm(vector, ord=p)` on a vector: metrics.py 50-63.  The norm of order 0 counts the
nonzero coordinates; the other real orders are handled by the general formula, to which numpy's special cases for the orders
1 and 2 are equal. The infinite orders are not modelled. -/
noncomputable def lpNorm (p : ℝ) (v : List ℝ) : ℝ :=
  if p = 0 then (v.filter fun x => decide (x ≠ 0)).length else ((v.map fun x => |x| ^ p).sum) ^ (1 / p)

/-- `npy.array(list_a) - npy.array(list_b)`: an array of length 1 is broadcast, otherwise the lengths have to be the same.
Used for metrics.py 115-131. -/
def arrayDiff (a b : List F) : Except PyErr (List F) :=
  if a.length = b.length then .ok (List.zipWith (· - ·) a b)
  else match a, b with
    | [x], b => .ok (b.map fun y => x - y)
    | a, [y] => .ok (a.map fun x => x - y)
    | _, _ => .error .valueError

/-- `minkowski_distance`: metrics.py 115-131. -/
noncomputable def minkowski (p : ℝ) (a b : List ℝ) : Except PyErr ℝ := (arrayDiff a b).map (lpNorm p)

/-- `mean`: metrics.py 134-144. -/
def pyMean (v : List F) : Except PyErr F := if v.length = 0 then .error .zeroDivision else .ok (mean v)

/-- `npy.var`: metrics.py 147-158.  Numpy gives NaN, and no error, on an empty vector: this case is not modelled. -/
def variance (v : List F) : F := mean (v.map fun x => (x - mean v) * (x - mean v))

/-- `covariance`: metrics.py 161-180. -/
def covariance (x y : List F) : Except PyErr F :=
  if x.length ≠ y.length then .error .valueError
  else do
    let mx ← pyMean x
    let my ← pyMean y
    .ok ((List.zipWith (fun a b => (a - mx) * (b - my)) x y).sum / x.length)

/-- What `npy.cov(matrix).tolist()` returns: the array is squeezed, so that a number is returned for a single row.  Used for metrics.py 183-200. -/
inductive CovResult (F : Type)
  | scalar (c : F)
  | matrix (m : List (List F))

/-- The entry of `npy.cov` for two rows: the sum is divided by the number of observations minus one.  Used for metrics.py 183-200. -/
def npCov (x y : List F) : F :=
  (List.zipWith (fun a b => (a - mean x) * (b - mean y)) x y).sum / ((x.length : F) - 1)

/-- `covariance_matrix`: metrics.py 183-200, for a rectangular matrix with at least two columns (numpy divides by 0 otherwise). -/
def covarianceMatrix : List (List F) → CovResult F
  | [r] => .scalar (npCov r r)
  | rows => .matrix (rows.map fun x => rows.map fun y => npCov x y)

end DC.Data
