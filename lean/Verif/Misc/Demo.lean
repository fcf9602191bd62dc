import Mathlib.Data.Rat.Defs
import Verif.Values.Basic
import Verif.Util.Str

/-!
The sample data of the package: dessia_common/tests.py, which the modules of dessia_common/models give to the users.

Simplifications: floats are exact rationals; the generator of random numbers is any function of the state of the run; the numeric
characters and the text of floats are those of any function.
-/
namespace DC.Demo

/-- `random.randint(low, high)`: raises ValueError if there is no integer between the bounds; `d` is what the generator would give.
Part of Python (no code); used at tests.py 276-277. -/
def randint (d low high : Int) : Except PyErr Int := if low ≤ high then .ok d else .error .valueError

/-- The loop of `RandDataD1.set_cluster_sizes`: tests.py 273-279.  `draw k low high` is the number drawn at turn `k`.  `int(x)` is the
truncation toward zero of a quotient, taken as exact. -/
def sizesLoop (draw : Nat → Int → Int → Int) (clusters : Int) : Nat → Int → Except PyErr (List Int)
  | 0, _ => .ok []
  | k + 1, current =>
    match randint (draw k (current.tdiv (clusters * 2)) ((current * 2).tdiv clusters)) (current.tdiv (clusters * 2))
        ((current * 2).tdiv clusters) with
    | .error e => .error e
    | .ok n => match sizesLoop draw clusters k (current - n) with
      | .error e => .error e
      | .ok l => .ok (n :: l)

/-- `RandDataD1.set_cluster_sizes`: tests.py 269-282. -/
def setClusterSizes (draw : Nat → Int → Int → Int) (points clusters : Int) : Except PyErr (List Int) :=
  match sizesLoop draw clusters (clusters - 1).toNat points with
  | .error e => .error e
  | .ok l => .ok (l ++ [points - l.sum])

/-- The points of the clusters: tests.py 260-265.  `point c i` is the `i`-th point drawn in cluster `c`, of `dims` coordinates. -/
def pointsLoop (point : Nat → Nat → Nat → Rat) (dims : Nat) : Nat → List Int → List (Nat × List Rat)
  | _, [] => []
  | c, n :: ns => (List.range n.toNat).map (fun i => (c, (List.range dims).map (point c i))) ++ pointsLoop point dims (c + 1) ns

/-- `RandDataD1.create_dataset`: tests.py 251-267.  Each point is kept with the rank of its cluster, which the code does not keep. -/
def createDataset (draw : Nat → Int → Int → Int) (point : Nat → Nat → Nat → Rat) (dims : Nat) (clusters points : Int) :
    Except PyErr (List (Nat × List Rat)) :=
  match setClusterSizes draw points clusters with
  | .error e => .error e
  | .ok sizes => .ok (pointsLoop point dims 0 sizes)

/-- A cell of a line once read: a float or a text.  tests.py 208. -/
inductive Cell where
  | num (q : Rat)
  | text (s : List Char)
  deriving DecidableEq, Repr

/-- How the text of numbers is read: `str.isnumeric` for one character, and `float`.  Part of Python (no code); used at tests.py 208. -/
structure Numerals where
  numeric : Char → Bool
  float : List Char → Option Rat

/-- `float(attr) if attr.replace('.', '').isnumeric() else attr`: tests.py 208. -/
def cellOf (N : Numerals) (s : List Char) : Except PyErr Cell :=
  let t := s.filter (· ≠ '.')
  if t ≠ [] ∧ t.all N.numeric then
    match N.float s with
    | some q => .ok (.num q)
    | none => .error .valueError
  else .ok (.text s)

/-- The cells of a line, from left to right: tests.py 208. -/
def cellsOf (N : Numerals) : List (List Char) → Except PyErr (List Cell)
  | [] => .ok []
  | s :: ss => match cellOf N s with
    | .error e => .error e
    | .ok c => match cellsOf N ss with
      | .error e => .error e
      | .ok cs => .ok (c :: cs)

/-- A car: tests.py 172-188. -/
structure Car where
  name : Cell
  mpg : Cell
  cylinders : Cell
  displacement : Cell
  horsepower : Cell
  weight : Cell
  acceleration : Cell
  model : Cell
  origin : Cell
  deriving DecidableEq, Repr

/-- `attr_list[3] /= 1000`: tests.py 209. -/
def inMetres (cs : List Cell) : Except PyErr (List Cell) :=
  match cs[3]? with
  | none => .error .indexError
  | some (Cell.text _) => .error .typeError
  | some (Cell.num q) => .ok (cs.set 3 (.num (q / 1000)))

/-- `cls(*attr_list)`: tests.py 178-188, 216. -/
def newCar : List Cell → Except PyErr Car
  | [a, b, c, d, e, f, g, h, i] => .ok ⟨a, b, c, d, e, f, g, h, i⟩
  | _ => .error .typeError

/-- One line: tests.py 208-216.  The conversions of numpy numbers do nothing, as no cell is one. -/
def carOf (N : Numerals) (line : List (List Char)) : Except PyErr Car :=
  match cellsOf N line with
  | .error e => .error e
  | .ok cs => match inMetres cs with
    | .error e => .error e
    | .ok cs => newCar cs

/-- `end is not None and idx_line >= end`: tests.py 204. -/
def past (last : Option Int) (i : Nat) : Bool := match last with
  | none => false
  | some e => decide (e ≤ i)

/-- The loop on the lines: tests.py 203-217.  `line.tolist()` raises AttributeError, as a line is a list. -/
def carsLoop (N : Numerals) (last : Option Int) (removeDuplicates : Bool) : Nat → List (List (List Char)) → Except PyErr (List Car)
  | _, [] => .ok []
  | i, line :: lines =>
    if past last i then .ok []
    else if removeDuplicates then .error .attributeError
    else match carOf N line with
      | .error e => .error e
      | .ok car => match carsLoop N last removeDuplicates (i + 1) lines with
        | .error e => .error e
        | .ok cars => .ok (car :: cars)

/-- `Car.from_csv`: tests.py 198-217.  The first line and what follows the last end of line are dropped. -/
def fromCsv (N : Numerals) (text : List Char) (last : Option Int) (removeDuplicates : Bool) : Except PyErr (List Car) :=
  carsLoop N last removeDuplicates 0 (((Str.split '\n' text).map (Str.split ',')).drop 1).dropLast

/-- `System.output_power`, `System.power_simulation`: tests.py 138-147. -/
def powerSimulation (times powers : List Rat) : List Rat := (times.zip powers).map fun p => p.2 * (8 / 10)

/-- `Generator.generate`: tests.py 51-54.  A model is its value and that of its submodel. -/
def generate (parameter solutions : Int) : List (Int × Int) :=
  (List.range solutions.toNat).map fun (i : Nat) => (parameter + (i : Int), parameter * (i : Int))

/-- What `Generator.long_generation` tells to its callback: tests.py 68-71. -/
def longProgress : List Rat := (List.range 500).map fun (i : Nat) => (i : Rat) / 499

end DC.Demo
