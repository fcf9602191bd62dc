import Mathlib.Data.List.Dedup
import Mathlib.Data.Nat.Sqrt
import Mathlib.Data.Rat.Floor
import Verif.Values.Basic
import Verif.Util.PyList
import Verif.Util.PyDict
/-
Parameters, interpolation, factorisations and optimization vectors.
Source: dessia_common/core.py 762-818, dessia_common/utils/interpolation.py, dessia_common/utils/algebra.py,
dessia_common/optimization.py.

Simplification: floats are exact rationals.
-/
namespace DC.Num

/-- `a / b`: ZeroDivisionError when `b` is 0; e.g. core.py 783, utils/interpolation.py 15, optimization.py 55. -/
def div (a b : Rat) : Except PyErr Rat := if b = 0 then .error .zeroDivision else .ok (a / b)

/-- `a % b` on floats: core.py 777-778. -/
def mod (a b : Rat) : Except PyErr Rat := if b = 0 then .error .zeroDivision else .ok (a - b * ⌊a / b⌋)

/-- `Parameter`: core.py 762-769. -/
structure Parameter where
  lower : Rat
  upper : Rat
  periodicity : Option Rat

/-- `random_value`: core.py 771-773; `random.uniform(a, b)` is `a + (b - a) * r`, `r` being the draw in [0, 1). -/
def randomValue (p : Parameter) (r : Rat) : Rat := p.lower + (p.upper - p.lower) * r

/-- `math.isclose(a, b, abs_tol=tol)`, the relative tolerance being 1e-9: core.py 780. -/
def isclose (a b tol : Rat) : Except PyErr Bool :=
  if tol < 0 then .error .valueError
  else .ok (decide (a = b ∨ |a - b| ≤ max (max |a| |b| / 1000000000) tol))

/-- `are_values_equal`: core.py 775-780. -/
def areValuesEqual (p : Parameter) (v1 v2 tol : Rat) : Except PyErr Bool :=
  match p.periodicity with
  | none => isclose v1 v2 tol
  | some period => do
    let v1 ← mod v1 period
    let v2 ← mod v2 period
    isclose v1 v2 tol

/-- `normalize`: core.py 782-785. -/
def normalize (p : Parameter) (v : Rat) : Except PyErr Rat := div (v - p.lower) (p.upper - p.lower)

/-- `original_value`: core.py 787-790. -/
def originalValue (p : Parameter) (x : Rat) : Rat := x * (p.upper - p.lower) + p.lower

/-- `optimizer_bounds`: core.py 792-796. -/
def optimizerBounds (p : Parameter) : Option (Rat × Rat) :=
  p.periodicity.map fun q => (p.lower - 1/2 * q, p.upper + 1/2 * q)

/-- `min(l)`: ValueError on an empty list; core.py 810. -/
def pyMin : List Rat → Except PyErr Rat
  | [] => .error .valueError
  | a :: l => .ok (l.foldl min a)

/-- `max(l)`: ValueError on an empty list; core.py 810. -/
def pyMax : List Rat → Except PyErr Rat
  | [] => .error .valueError
  | a :: l => .ok (l.foldl max a)

/-- `Parameter(min(v), max(v), name=k)`: core.py 810. -/
def parameterOf (kv : String × List Rat) : Except PyErr (String × Parameter) := do
  let lo ← pyMin kv.2
  let hi ← pyMax kv.2
  .ok (kv.1, ⟨lo, hi, none⟩)

/-- `ParameterSet.parameters`: core.py 807-811. -/
def parameters (values : List (String × List Rat)) : Except PyErr (List (String × Parameter)) :=
  values.mapM parameterOf

/-- `ParameterSet.means`: core.py 813-817. -/
def means (values : List (String × List Rat)) : Except PyErr (List (String × Rat)) :=
  values.mapM fun kv => do
    let m ← div kv.2.sum kv.2.length
    .ok (kv.1, m)

/-- The loop of `istep_from_value_on_list`: utils/interpolation.py 11-18.  `sorted` swaps the points only if the second
is smaller. -/
def istepLoop (v : Rat) : Nat → List Rat → Except PyErr (Option Rat)
  | i, a :: b :: rest =>
    let lo := if b < a then b else a
    let hi := if b < a then a else b
    if lo ≤ v ∧ v ≤ hi then do
      let alpha ← div (v - lo) (hi - lo)
      if alpha < 0 ∨ 1 < alpha then .error .valueError else .ok (some (i + alpha))
    else istepLoop v (i + 1) (b :: rest)
  | _, _ => .ok none

/-- `istep_from_value_on_list`: utils/interpolation.py 8-31. -/
def istep (l : List Rat) (v : Rat) (extrapolate : Bool) : Except PyErr Rat := do
  match ← istepLoop v 0 l with
  | some r => .ok r
  | none =>
    if extrapolate then do
      let first ← Py.get l 0
      let last ← Py.get l (-1)
      if |first - v| < |last - v| then .ok 0 else .ok (l.length - 1)
    else .error .valueError

/-- `interpolate_from_istep`: utils/interpolation.py 34-45, on a list of numbers. -/
def interpolate (objects : List Rat) (istep : Rat) : Except PyErr Rat :=
  if istep < 0 ∨ istep > (objects.length : Rat) - 1 then .error .valueError
  else
    let i : Int := ⌊istep⌋
    if (i : Rat) = istep then Py.get objects i
    else do
      let alpha := istep - i
      let p1 ← Py.get objects i
      let p2 ← Py.get objects (i + 1)
      .ok ((1 - alpha) * p1 + alpha * p2)

/-- `factors`: utils/algebra.py 9-14, 28-33.  The order of a `set` is not specified: the list stands for any order of its
elements. -/
def factors (n : Nat) : List Nat :=
  (((List.range' 1 n.sqrt).filter fun i => n % i = 0).flatMap fun i => [i, n / i]).dedup

/-- `number2factor`: utils/algebra.py 7-21.  The square root of a negative number is complex: `int` raises.  The
quotients of floats are exact here. -/
def number2factor (number : Int) : Except PyErr (List (Nat × Nat)) :=
  if number < 0 then .error .typeError
  else
    let n := number.toNat
    if n = 0 then .ok []
    else .ok (((factors n).filter fun x => n % x = 0).map fun x => (x, n / x))

/-- The comprehension of `number3factor`, and the candidates of `get_incomplete_factors`: utils/algebra.py 38-41, 51-54. -/
def triples (n : Nat) (fs : List Nat) : List (Nat × Nat × Nat) :=
  fs.flatMap fun x => (fs.filter fun y => n % (x * y) = 0).map fun y => (x, y, n / (x * y))

/-- `set(g) == set(h)`: utils/algebra.py 55. -/
def sameSet (g h : Nat × Nat × Nat) : Bool :=
  let l := [g.1, g.2.1, g.2.2]
  let m := [h.1, h.2.1, h.2.2]
  l.all (m.contains ·) && m.all (l.contains ·)

/-- The loop of `get_incomplete_factors`: utils/algebra.py 51-57.  `sets` always holds the sets of `grids`. -/
def incompleteLoop (grids : List (Nat × Nat × Nat)) : List (Nat × Nat × Nat) → List (Nat × Nat × Nat)
  | [] => grids
  | g :: gs => if grids.any (sameSet · g) then incompleteLoop grids gs else incompleteLoop (grids ++ [g]) gs

/-- `number3factor`: utils/algebra.py 24-44. -/
def number3factor (number : Int) (complete : Bool) : Except PyErr (List (Nat × Nat × Nat)) :=
  if number < 0 then .error .typeError
  else
    let n := number.toNat
    if n = 0 then .ok []
    else if complete then .ok (triples n (factors n))
    else .ok (incompleteLoop [] (triples n (factors n)))

/-- `BoundedAttributeValue`: optimization.py 26-47. -/
structure Bound where
  name : String
  lo : Rat
  hi : Rat

/-- `dimensionless_to_value`: optimization.py 49-51. -/
def Bound.toValue (b : Bound) (x : Rat) : Rat := b.lo + x * (b.hi - b.lo)

/-- `dimensionless_value`: optimization.py 53-55. -/
def Bound.dimensionless (b : Bound) (v : Rat) : Except PyErr Rat := div (v - b.lo) (b.hi - b.lo)

/-- `dimensionless_vector_to_vector`: optimization.py 105-107. -/
def toVector (bounds : List Bound) (dl : List Rat) : List Rat := List.zipWith (fun x b => b.toValue x) dl bounds

/-- `vector_to_attributes_values`: optimization.py 109-115. -/
def attributesValues (fixed : List (String × Rat)) (bounds : List Bound) (x : List Rat) : List (String × Rat) :=
  let attributes := fixed.foldl (fun d fp => Dict.set d fp.1 fp.2) []
  (bounds.zip x).foldl (fun d bx => Dict.set d bx.1.name bx.2) attributes

/-- What the optimizers of scipy and cma return: the dimensionless point and its cost. optimization.py 142, 153. -/
abbrev Found := List Rat × Rat

/-- `getattr(model_cma, attr.attribute_name)`: optimization.py 163. -/
def getAttr (model : List (String × Rat)) (b : Bound) : Except PyErr Rat :=
  match model.lookup b.name with
  | some v => .ok v
  | none => .error .attributeError

/-- `optimize_cma_then_gradient`: optimization.py 160-169 with 134-158.  `cma` is the result of the CMA, `gradient x0` the
one of the gradient method started from `x0`.  A model is represented by the values of its attributes: the user's
`instantiate_model` is supposed to store them.  Returns the starting point of the gradient and the result. -/
def cmaThenGradient (fixed : List (String × Rat)) (bounds : List Bound) (cma : Found) (gradient : List Rat → Found) :
    Except PyErr (List Rat × List (String × Rat) × Rat) := do
  let modelCma := attributesValues fixed bounds (toVector bounds cma.1)
  let x0 ← bounds.mapM (getAttr modelCma)
  let g := gradient x0
  let model := attributesValues fixed bounds (toVector bounds g.1)
  if cma.2 ≤ g.2 then .ok (x0, modelCma, cma.2) else .ok (x0, model, g.2)

end DC.Num
