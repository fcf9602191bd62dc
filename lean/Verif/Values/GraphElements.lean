import Verif.Values.Pointers
/-!
`pointer_graph_elements`, which lists the places of a document and the links between them: serialization.py 676-731.

Simplification: paths are lists of segments, as in `Pointers.lean`; the old mark of references is not modelled.
-/
namespace DC

/-- A node given by `pointer_graph_elements`: a place of the document, or what a reference holds.  serialization.py 701, 712, 726. -/
inductive GNode where
  | place (p : Path)
  | target (r : V)

/-- An edge given by `pointer_graph_elements`: a pair from a sequence to its element (704), a triple ending with False from a dict to
what it holds (729), a triple ending with True from a reference to its target (712).  serialization.py 704, 712, 729. -/
inductive GEdge where
  | pair (p q : Path)
  | triple (p q : Path)
  | pointer (p : Path) (r : V)

mutual
/-- `pointer_graph_elements`: serialization.py 676-685; `pointer_graph_elements_dict`: 709-731. -/
def graphElements (path : Path) : V → Except PyErr (List GNode × List GEdge)
  | .dict d =>
    match d.lookup (.str "$ref") with
    | some r => .ok ([.place path, .target r], [.pointer path r])
    | none => graphElementsD path d
  | .list l => graphElementsL path 0 l
  | .tuple l => graphElementsL path 0 l
  | .cls _ => .error .valueError
  | .file .. => .error .valueError
  | .obj .. => .error .valueError
  | .other _ => .error .valueError
  | _ => .ok ([], [])
/-- The loop of `pointer_graph_elements_sequence`: serialization.py 693-706. -/
def graphElementsL (path : Path) (i : Nat) : List V → Except PyErr (List GNode × List GEdge)
  | [] => .ok ([], [])
  | v :: vs => do
    let r ← graphElements (path.idx i) v
    let rs ← graphElementsL path (i + 1) vs
    .ok (.place (path.idx i) :: r.1 ++ rs.1, .pair path (path.idx i) :: r.2 ++ rs.2)
/-- The loop of `pointer_graph_elements_dict`: serialization.py 718-731. -/
def graphElementsD (path : Path) : List (Key × V) → Except PyErr (List GNode × List GEdge)
  | [] => .ok ([], [])
  | (k, v) :: kvs =>
    if isBase v then graphElementsD path kvs
    else do
      let r ← graphElements (path.key k) v
      let rs ← graphElementsD path kvs
      .ok (.place (path.key k) :: r.1 ++ rs.1, .triple path (path.key k) :: r.2 ++ rs.2)
end

end DC
