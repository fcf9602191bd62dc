import Verif.Values.Pointers
import Verif.Util.PyDict
/-
Statistics on the pointers of an object.
Source: dessia_common/serialization.py 734-785.
-/
namespace DC

/-- The counters of `pointers_analysis`: serialization.py 746-748.  A class is `none` when the attribute does not exist. -/
structure PStats where
  number : List (String × Nat)
  composed : List (Option String × List (String × Nat))
  fromPath : List (Path × String)

/-- The class at a path, kept once it is known: serialization.py 752-760, 765-773.  `classAt` is the class of what `get_in_object_from_path`
finds in the object, or its error; an AttributeError is no class. -/
def classAndMemo (classAt : Path → Except PyErr String) (memo : List (Path × String)) (p : Path) :
    Except PyErr (Option String × List (Path × String)) :=
  match memo.lookup p with
  | some c => .ok (some c, memo)
  | none =>
    match classAt p with
    | .ok c => .ok (some c, Dict.set memo p c)
    | .error .attributeError => .ok (none, memo)
    | .error e => .error e

/-- Count one use of a class by another one: serialization.py 775-783.  The class is no empty string.  A missing user is a missing key. -/
def countUse (composed : List (Option String × List (String × Nat))) (c1 c2 : Option String) :
    Except PyErr (List (Option String × List (String × Nat))) :=
  if c1 = c2 then .ok composed
  else
    let uses := (composed.lookup c2).getD []
    match c1 with
    | none => .error .keyError
    | some u =>
      match uses.lookup u with
      | none => .ok (Dict.set composed c2 (Dict.set uses u 1))
      | some k => .ok (Dict.set composed c2 (Dict.set uses u (k + 1)))

/-- Count the target of an edge: serialization.py 762-763. -/
def countClass (number : List (String × Nat)) : Option String → List (String × Nat)
  | none => number
  | some c => Dict.set number c ((number.lookup c).getD 0 + 1)

/-- One edge: serialization.py 750-783. -/
def countEdge (classAt : Path → Except PyErr String) (s : PStats) (e : Path × Path) : Except PyErr PStats :=
  if e.1 = ["#"] then .ok s
  else
    match classAndMemo classAt s.fromPath e.2 with
    | .error err => .error err
    | .ok (c2, memo) =>
      match classAndMemo classAt memo e.1 with
      | .error err => .error err
      | .ok (c1, memo) =>
        match countUse s.composed c1 c2 with
        | .error err => .error err
        | .ok composed => .ok ⟨countClass s.number c2, composed, memo⟩

/-- The loop on the edges: serialization.py 750. -/
def countEdges (classAt : Path → Except PyErr String) : PStats → List (Path × Path) → Except PyErr PStats
  | s, [] => .ok s
  | s, e :: es =>
    match countEdge classAt s e with
    | .error err => .error err
    | .ok s => countEdges classAt s es

/-- `pointers_analysis`, on the dictionary of an object: serialization.py 734-785.  `.ok none`: a loop of `pointer_graph` has not ended within
`fuel` steps. A graph of networkx holds an edge once. -/
def pointersAnalysis (fuel : Nat) (classAt : Path → Except PyErr String) (v : V) : Except PyErr (Option PStats) :=
  match pointerGraph fuel v with
  | .error e => .error e
  | .ok none => .ok none
  | .ok (some g) =>
    match countEdges classAt ⟨[], [], []⟩ g.edges.dedup with
    | .error e => .error e
    | .ok s => .ok (some s)

end DC
