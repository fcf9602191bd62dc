import Verif.Misc.Numbers
/-
Optimizations: the model and the cost they return.
Source: dessia_common/optimization.py 93-169.  The searches belong to scipy and cma: they are parameters.
Simplification: floats are exact rationals.
-/
namespace DC.Num

variable {M : Type}

/-- An `InstantiatingModelOptimizer`: optimization.py 93-102, with the methods of its subclass, `instantiate_model` (104) and
`objective_from_model` (126), and the attributes of models (163). -/
structure Problem (M : Type) where
  fixed : List (String × Rat)
  bounds : List Bound
  instantiate : List (String × Rat) → Except PyErr M
  objective : M → Except PyErr Rat
  attr : M → String → Except PyErr Rat

/-- The model of a dimensionless vector: optimization.py 122-123, 146-147, 155-157. -/
def Problem.modelAt (P : Problem M) (dl : List Rat) : Except PyErr M :=
  P.instantiate (attributesValues P.fixed P.bounds (toVector P.bounds dl))

/-- `objective_from_dimensionless_vector`: optimization.py 120-124. -/
def Problem.costAt (P : Problem M) (dl : List Rat) : Except PyErr Rat :=
  match P.modelAt dl with
  | .error e => .error e
  | .ok m => P.objective m

/-- `scipy_bounds`: optimization.py 130-132. -/
def Problem.scipyBounds (P : Problem M) : List (Rat × Rat) := P.bounds.map fun _ => (0, 1)

/-- `cma_bounds`: optimization.py 134-137. -/
def Problem.cmaBounds (P : Problem M) : List Rat × List Rat := (List.replicate P.bounds.length 0, List.replicate P.bounds.length 1)

/-- The searches, from a cost, a first point and bounds: `scipy.optimize.minimize` (optimization.py 144) and `cma.fmin` (153). -/
structure Searches where
  minimize : (List Rat → Except PyErr Rat) → List Rat → List (Rat × Rat) → Except PyErr Found
  cma : (List Rat → Except PyErr Rat) → List Rat → List Rat × List Rat → Except PyErr Found

/-- `optimize_gradient`: optimization.py 139-148.  `draw` is the random point taken without `x0`. -/
def Problem.optimizeGradient (P : Problem M) (S : Searches) (draw : List Rat) (x0 : Option (List Rat)) : Except PyErr (M × Rat) :=
  match S.minimize P.costAt (x0.getD draw) P.scipyBounds with
  | .error e => .error e
  | .ok r =>
    match P.modelAt r.1 with
    | .error e => .error e
    | .ok m => .ok (m, r.2)

/-- `optimize_cma`: optimization.py 150-158. -/
def Problem.optimizeCma (P : Problem M) (S : Searches) (draw : List Rat) : Except PyErr (M × Rat) :=
  match S.cma P.costAt draw P.cmaBounds with
  | .error e => .error e
  | .ok r =>
    match P.modelAt r.1 with
    | .error e => .error e
    | .ok m => .ok (m, r.2)

/-- `optimize_cma_then_gradient`: optimization.py 160-169. -/
def Problem.optimizeBoth (P : Problem M) (S : Searches) (draw : List Rat) : Except PyErr (M × Rat) :=
  match P.optimizeCma S draw with
  | .error e => .error e
  | .ok c =>
    match P.bounds.mapM fun b => P.attr c.1 b.name with
    | .error e => .error e
    | .ok x0 =>
      match P.optimizeGradient S draw (some x0) with
      | .error e => .error e
      | .ok g => if c.2 ≤ g.2 then .ok c else .ok g

end DC.Num
