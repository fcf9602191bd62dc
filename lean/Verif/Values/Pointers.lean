import Verif.Values.Paths
import Mathlib.Data.List.Dedup
/-
JSON pointers: analysis of a serialized value and order of deserialization.
Sources: dessia_common/serialization.py 480-673, dessia_common/graph.py 7-12.
-/
namespace DC

/-- `isinstance_base_types`: utils/types.py 96-101 (measures are floats). -/
def isBase : V → Bool
  | .none | .bool _ | .int _ | .flt _ | .measure _ _ | .str _ => true
  | _ => false

mutual
/-- `find_references`: serialization.py 480-496, with `find_references_dict` (513-528) inlined.  The reference is kept
as a value: it is a string in sound data. -/
def findRefs (path : Path) : V → Except PyErr (List (Path × V))
  | .dict d =>
    match d.lookup (.str "$ref") with
    | some r => .ok [(path, r)]
    | none => findRefsD path d
  | .list l => findRefsL path 0 l
  | .tuple l => findRefsL path 0 l
  | .cls _ => .error .valueError
  | .other _ => .error .valueError
  | _ => .ok []
/-- `find_references_sequence`: serialization.py 499-510. -/
def findRefsL (path : Path) (i : Nat) : List V → Except PyErr (List (Path × V))
  | [] => .ok []
  | v :: vs => do
    let r ← findRefs (path.idx i) v
    let rs ← findRefsL path (i + 1) vs
    .ok (r ++ rs)
/-- The loop of `find_references_dict`: serialization.py 522-528. -/
def findRefsD (path : Path) : List (Key × V) → Except PyErr (List (Path × V))
  | [] => .ok []
  | (k, v) :: kvs =>
    if isBase v then findRefsD path kvs
    else do
      let r ← findRefs (path.key k) v
      let rs ← findRefsD path kvs
      .ok (r ++ rs)
end

/-- `reference.split('/')`: serialization.py 562; a reference which is not a string has no `split`
(AttributeError). -/
def refPath : V → Except PyErr Path
  | .str s => .ok (splitSlash s)
  | _ => .error .attributeError

/-- The references with their targets as paths: serialization.py 545-569. -/
def refPaths : List (Path × V) → Except PyErr (List (Path × Path))
  | [] => .ok []
  | (p, r) :: rest => do
    let q ← refPath r
    let qs ← refPaths rest
    .ok ((p, q) :: qs)

/-- The non-empty prefixes of a path, from the shortest: the nodes added at serialization.py 552-559. -/
def prefixes : Path → List Path
  | [] => []
  | s :: rest => [s] :: (prefixes rest).map (fun p => s :: p)

/-- Consecutive elements of a list: the edges added at serialization.py 555-558. -/
def steps {α : Type} : List α → List (α × α)
  | a :: b :: rest => (a, b) :: steps (b :: rest)
  | _ => []

/-- `'/'.join(current_node.split('/')[:-1])`: serialization.py 592.  The parent of a path of one segment is the empty
string, which is a path of one empty segment, and its own parent. -/
def parent (p : Path) : Path :=
  match p.dropLast with
  | [] => [""]
  | q => q

/-- The loop `while current_node != '#'` climbing from a reference: serialization.py 585-592, returning the nodes
crossed, or `none` if more than `fuel` steps are needed. -/
def climb : Nat → Path → Option (List Path)
  | fuel, p =>
    if p = ["#"] then some []
    else match fuel with
      | 0 => none
      | fuel + 1 => (climb fuel (parent p)).map (fun l => p :: l)

/-- `node.replace(old, new)` for nodes below the renamed one: serialization.py 599.
Simplification: only the occurrence at the beginning is replaced (a second one needs a key holding `#`). -/
def renamePrefix (old new node : Path) : Path :=
  if old.isPrefixOf node then new ++ node.drop old.length else node

/-- What the second loop of `pointer_graph` adds for one reference: extra edges and renamed nodes.
Cites: serialization.py 581-602.  `refs` is `refs_by_path`. -/
def extraFor (refs : List (Path × Path)) (path pointAt : Path) (crossed : List Path) :
    List (Path × Path) × List (Path × Path) :=
  let hits := crossed.filterMap (fun n => (refs.lookup n).map (fun r => (n, r)))
  let edges := hits.map (fun h => (path, h.2))
  match hits.getLast? with
  | none => (edges, [])
  | some change =>
    let renamed := ((prefixes pointAt).drop 1).filterMap (fun node =>
      let new := renamePrefix change.1 change.2 node
      if new ≠ node then some (node, new) else none)
    (edges ++ renamed, renamed)

/-- The result of `pointer_graph`: nodes, edges and the attribute `equals` of the nodes.
Cites: serialization.py 573-608.  Sets are lists without order meaning. -/
structure PGraph where
  nodes : List Path
  edges : List (Path × Path)
  equals : List (Path × Path)
  deriving Repr

/-- Keep the last binding of each key first in look-ups, as assigning `new_paths[node]` again does:
serialization.py 601. -/
def lastWins (l : List (Path × Path)) : List (Path × Path) := l.reverse

/-- The second loop of `pointer_graph` on all the references: serialization.py 578-602.  `none` when a climbing loop
does not end within `fuel` steps. -/
def extras (fuel : Nat) (refs : List (Path × Path)) :
    List (Path × Path) → Option (List (Path × Path) × List (Path × Path))
  | [] => some ([], [])
  | (p, q) :: rest =>
    match climb fuel q with
    | none => none
    | some crossed =>
      match extras fuel refs rest with
      | none => none
      | some (e, n) =>
        let (e', n') := extraFor refs p q crossed
        some (e' ++ e, n' ++ n)

/-- `pointer_graph`: serialization.py 531-608.  `.ok none` stands for a loop that has not ended within `fuel` steps.
`networkx` adds the end nodes of an edge that are missing. -/
def pointerGraph (fuel : Nat) (v : V) : Except PyErr (Option PGraph) := do
  let refs ← findRefs ["#"] v
  let refs ← refPaths refs
  match extras fuel (lastWins refs) refs with
  | none => .ok none
  | some (extra, renamed) =>
    let nodes := refs.flatMap (fun r => prefixes r.1 ++ prefixes r.2)
    let edges := refs.flatMap (fun r => steps (prefixes r.1) ++ steps (prefixes r.2)) ++ refs ++ extra
    .ok (some { nodes := (nodes ++ extra.map (·.2)).dedup, edges := edges, equals := lastWins renamed })

/-- One layer of a topological sort of the reversed graph: the remaining nodes all of whose successors have been
listed.  Models `networkx.topological_sort(graph.reverse())`, graph.py 12. -/
def ready (edges : List (Path × Path)) (todo : List Path) : List Path :=
  todo.filter (fun n => (edges.filter (fun e => e.1 = n)).all (fun e => !todo.contains e.2))

/-- `explore_tree_from_leaves`: graph.py 7-12: a topological order of the reversed graph, `none` when the graph is
cyclic (`is_directed_acyclic_graph`, and `simple_cycles` at serialization.py 633-637).  Simplification: networkx's
algorithm, an external library, is replaced by Kahn's algorithm by layers; its order among nodes that are not related
depends on the iteration order of sets in the code, here on the order of the list of nodes. -/
def fromLeaves (edges : List (Path × Path)) (fuel : Nat) (todo : List Path) : Option (List Path) :=
  if todo = [] then some []
  else match fuel with
    | 0 => none
    | fuel + 1 =>
      let layer := ready edges todo
      if layer = [] then none
      else (fromLeaves edges fuel (todo.filter (fun n => !layer.contains n))).map (layer ++ ·)

/-- `deserialization_order`: serialization.py 627-652.  `if not equals[node] in cleaned_order` (648) is always true,
since `cleaned_order` holds pairs. -/
def deserializationOrder (fuel : Nat) (v : V) : Except PyErr (Option (List (Path × Option Path))) := do
  match ← pointerGraph fuel v with
  | none => .ok none
  | some g =>
    if !g.nodes.contains ["#"] then .ok (some [])
    else match fromLeaves g.edges g.nodes.length g.nodes with
      | none => .error .notImplemented
      | some order =>
        .ok (some ((order.filter (· ≠ ["#"])).map (fun n => (n, g.equals.lookup n))))

/-- The loop of `dereference_jsonpointers`: serialization.py 664-673. -/
def dereference (W : World) (v : V) : List (Path × Option Path) → PMemo → Except PyErr PMemo
  | [], M => .ok M
  | (node, none) :: rest, M => do
    let e ← getPath 0 false v node
    let o ← deser W M node false e
    dereference W v rest ((node, o) :: M)
  | (node, some r) :: rest, M =>
    match M.lookup r with
    | none => .error .keyError
    | some o => dereference W v rest ((node, o) :: M)

/-- `dict_to_object` on a whole dictionary (no memo yet): serialization.py 290-351, 611-624.  `.ok none`: a loop that
has not ended within `fuel` steps. -/
def loadDict (W : World) (fuel : Nat) (d : List (Key × V)) : Except PyErr (Option V) := do
  match ← deserializationOrder fuel (.dict d) with
  | none => .ok none
  | some order =>
    let M ← dereference W (.dict d) order []
    -- the memo never holds the path of the root, removed at serialization.py 641
    let o ← deser W M ["#"] false (.dict d)
    .ok (some o)

end DC
