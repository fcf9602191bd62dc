import Mathlib.Data.Rat.Defs
import Verif.Values.Paths

/-!
The sample structures of beams of dessia_common/forms.py 774-910, with the references of their drawings.

Simplifications: lengths are exact rationals; the generator of random numbers is any function of its turn and bounds; styles, labels
and the extrusion of the drawings are dropped.
-/
namespace DC.Beams

/-- A beam: forms.py 774-784. -/
structure Beam where
  length : Rat
  name : String
  deriving DecidableEq, Repr

/-- `width`: forms.py 781. -/
def Beam.width (b : Beam) : Rat := b.length / 10

/-- A structure of beams: forms.py 848-858. -/
structure Structure where
  horizontal : Beam
  vertical : List Beam
  name : String
  deriving DecidableEq, Repr

/-- The object of a beam: forms.py 779-784. -/
def Beam.obj (cls : String) (b : Beam) : V :=
  .obj ("dessia_common.forms." ++ cls) [(.str "length", .flt b.length), (.str "width", .flt b.width), (.str "name", .str b.name)]

/-- The object of a structure: forms.py 853-858. -/
def Structure.obj (s : Structure) : V :=
  .obj "dessia_common.forms.BeamStructure" [(.str "horizontal_beam", s.horizontal.obj "HorizontalBeam"),
    (.str "vertical_beams", .list (s.vertical.map (Beam.obj "VerticalBeam"))), (.str "n_beams", .int s.vertical.length),
    (.str "name", .str s.name)]

/-- A shape of a drawing: its reference path, by segments, and its corners.  forms.py 796-798, 827-829. -/
structure Shape where
  reference : Path
  corners : List (Rat × Rat)

/-- `HorizontalBeam.contour`: forms.py 794-798. -/
def hContour (b : Beam) (reference : Path) : Shape := ⟨reference, [(0, 0), (0, b.width), (b.length, b.width), (b.length, 0)]⟩

/-- `VerticalBeam.contour`: forms.py 825-829. -/
def vContour (b : Beam) (origin : Rat) (reference : Path) : Shape :=
  ⟨reference, [(origin, 0), (origin, b.length), (origin + b.width, b.length), (origin + b.width, 0)]⟩

/-- The contours of the vertical beams, from the `i`-th on: forms.py 865-867, 876-878. -/
def vContours (length : Rat) (n : Nat) (reference : Path) : Nat → List Beam → List Shape
  | _, [] => []
  | i, b :: bs =>
    vContour b (length * i / n) (reference ++ ["vertical_beams", toString i]) :: vContours length n reference (i + 1) bs

/-- `BeamStructure.plot2d`, and `plot3d` which extrudes the same contours: forms.py 860-880. -/
def Structure.plot (s : Structure) (reference : Path) : List Shape :=
  hContour s.horizontal (reference ++ ["horizontal_beam"]) :: vContours s.horizontal.length s.vertical.length reference 0 s.vertical

/-- `randrange(low, high)`: raises ValueError if the range is empty.  Part of Python (no code); used at forms.py 901, 905. -/
def randrange (d low high : Int) : Except PyErr Int := if low < high then .ok d else .error .valueError

/-- The vertical beams, from the `j`-th on: forms.py 904-906.  `draw j low high` is the number drawn. -/
def genVertical (draw : Nat → Int → Int → Int) (minLength maxLength : Int) : Nat → Nat → Except PyErr (List Beam)
  | 0, _ => .ok []
  | n + 1, j => match randrange (draw j (minLength * 10) (maxLength * 10)) (minLength * 10) (maxLength * 10) with
    | .error e => .error e
    | .ok l => match genVertical draw minLength maxLength n (j + 1) with
      | .error e => .error e
      | .ok bs => .ok (⟨(l : Rat) / 10, "V" ++ toString (j + 1)⟩ :: bs)

/-- The structures, from the `i`-th on: forms.py 900-909.  `count i` draws the number of beams. -/
def genLoop (count : Nat → Int → Int → Int) (draw : Nat → Nat → Int → Int → Int) (maxBeams minLength maxLength : Int) (name : String) :
    Nat → Nat → Except PyErr (List Structure)
  | 0, _ => .ok []
  | n + 1, i => match randrange (count i 1 (maxBeams + 1)) 1 (maxBeams + 1) with
    | .error e => .error e
    | .ok k => match genVertical (draw i) minLength maxLength k.toNat 0 with
      | .error e => .error e
      | .ok vs => match genLoop count draw maxBeams minLength maxLength name n (i + 1) with
        | .error e => .error e
        | .ok ss => .ok (⟨⟨((k - 1) * 10 : Int), "H"⟩, vs, name ++ " " ++ toString (i + 1)⟩ :: ss)

/-- `BeamStructureGenerator.generate`: forms.py 897-910. -/
def generateBeams (count : Nat → Int → Int → Int) (draw : Nat → Nat → Int → Int → Int) (solutions maxBeams minLength maxLength : Int)
    (name : String) : Except PyErr (List Structure) :=
  genLoop count draw maxBeams minLength maxLength name solutions.toNat 0

end DC.Beams
