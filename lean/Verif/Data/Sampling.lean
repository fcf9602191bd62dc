import Verif.Misc.Numbers
/-
Designs of experiments.
Source: dessia_common/datatools/sampling.py, optimization.py 16-51.
Simplifications: floats are exact rationals; a sample is the keyword arguments given to the sampled class; `number` is a natural
number.
-/
namespace DC.Data

/-- `BoundedAttributeValue` with its `number`: optimization.py 26-47. -/
structure SAttr extends Num.Bound where
  number : Nat

/-- `ClassSampler`: sampling.py 32-40. `constants` are the FixedAttributeValue, optimization.py 16-24. -/
structure Sampler where
  sampled : List SAttr
  constants : List (String × Rat)

/-- `_get_attributes_names`: sampling.py 42-43. -/
def Sampler.attributes (s : Sampler) : List String := s.constants.map (·.1) ++ s.sampled.map (·.name)

/-- `_get_instances_numbers`: sampling.py 45-46. -/
def Sampler.instancesNumbers (s : Sampler) : List Nat := List.replicate s.constants.length 1 ++ s.sampled.map (·.number)

/-- `npy.linspace(start, stop, number)`: a single point is the start; sampling.py 54. -/
def linspace (start stop : Rat) (number : Nat) : List Rat :=
  if number = 1 then [start] else (List.range number).map fun (k : Nat) => start + k * ((stop - start) / ((number : Rat) - 1))

/-- `_build_parameter_grid`: sampling.py 48-56. -/
def Sampler.grid (s : Sampler) (numbers : List Nat) : List (List Rat) :=
  List.zipWith (fun c (_ : Nat) => [c.2]) s.constants (numbers.take s.constants.length) ++
    List.zipWith (fun (a : SAttr) number => linspace a.lo a.hi number) s.sampled (numbers.drop s.constants.length)

/-- `pyDOE.fullfact(levels)`: the rows of indices, the first column varying the fastest.  Without any level, the size of the
array is the float `npy.prod([])`, which raises a TypeError. Sampling.py 70. -/
def fullfactRows : List Nat → List (List Nat)
  | [] => [[]]
  | l :: levels => (fullfactRows levels).flatMap fun row => (List.range l).map fun j => j :: row

/-- `pyDOE.fullfact(levels)`: sampling.py 70. -/
def fullfact (levels : List Nat) : Except PyErr (List (List Nat)) := if levels.length = 0 then .error .typeError else .ok (fullfactRows levels)

/-- `[parameter_grid[attr_row][int(idx)] for attr_row, idx in enumerate(idx_sample)]`: sampling.py 73.  The grid has as many rows as
the sampling has columns. -/
def sampleValues (grid : List (List Rat)) (idx : List Nat) : Except PyErr (List Rat) :=
  (grid.zip idx).mapM fun p => Py.get p.1 p.2

/-- `dict(zip(self.attributes, values))`: sampling.py 74. -/
def kwargs (names : List String) (values : List Rat) : List (String × Rat) := (names.zip values).foldl (fun d p => Dict.set d p.1 p.2) []

/-- `full_factorial`: sampling.py 58-75. -/
def Sampler.fullFactorial (s : Sampler) : Except PyErr (List (List (String × Rat))) := do
  let rows ← fullfact s.instancesNumbers
  rows.mapM fun idx => (sampleValues (s.grid s.instancesNumbers) idx).map (kwargs s.attributes)

/-- `lhs`, for the sampling of [0, 1] given by `pyDOE.lhs`: sampling.py 77-95. -/
def Sampler.lhs (s : Sampler) (sampling : List (List Rat)) : List (List (String × Rat)) :=
  sampling.map fun row =>
    kwargs s.attributes (s.constants.map (·.2) ++ List.zipWith (fun (a : SAttr) x => a.toBound.toValue x) s.sampled row)

/-- `montecarlo`, for the draws in [0, 1] used by `random.uniform(a, b)`, which is `a + (b - a) * draw`: sampling.py 97-116. -/
def Sampler.montecarlo (s : Sampler) (draws : List (List Rat)) : List (List (String × Rat)) :=
  draws.map fun row =>
    kwargs s.attributes (s.constants.map (·.2) ++ List.zipWith (fun (a : SAttr) r => a.lo + (a.hi - a.lo) * r) s.sampled row)

/-- `_get_doe`, of which `make_doe` makes a Dataset: sampling.py 117-124, 126-169.  `draw n` is the sampling of `n` points of the unit hypercube, by
`pyDOE.lhs` or by `random.uniform`; `range` of a negative number is empty (sampling.py 113).  Simplification: `pyDOE.lhs` with a negative number
of samples gives no sample, where it raises a ValueError. -/
def Sampler.makeDoe (s : Sampler) (draw : Nat → List (List Rat)) (samples : Int) (method : String) : Except PyErr (List (List (String × Rat))) :=
  if method = "fullfact" then s.fullFactorial
  else if method = "lhs" then .ok (s.lhs (draw samples.toNat))
  else if method = "montecarlo" then .ok (s.montecarlo (draw samples.toNat))
  else .error .notImplemented

end DC.Data
