import Verif.Workflow.Model
import Verif.Util.PyDict
/-
Layout of a workflow in columns.  Source: dessia_common/workflow/core.py 417-419, 1172-1209, dessia_common/graph.py 55-100.

A node of the layout is designated by its index in `Workflow.nodes`: blocks first, then non-block variables.
-/
namespace DC.Wkf

variable {α : Type}

/-- The node of the graph at the beginning of a pipe: workflow/core.py 1179-1182, 417-419. -/
def layoutSource (W : Workflow α) (v : Nat) : Except PyErr Nat :=
  if v ∈ nbvs W then .ok (W.blocks.length + (nbvs W).idxOf v) else blockFromVariable W (some v)

/-- The edges of `layout_graph`: workflow/core.py 1178-1184. -/
def layoutEdges (W : Workflow α) : List Pipe → Except PyErr (List (Nat × Nat))
  | [] => .ok []
  | p :: ps => match layoutSource W p.input with
    | .error e => .error e
    | .ok a => match blockFromVariable W (some p.output) with
      | .error e => .error e
      | .ok b => match layoutEdges W ps with
        | .error e => .error e
        | .ok es => .ok ((a, b) :: es)

/-- What networkx answers on a connected part of the graph: its nodes in the order of the iteration on `graph.nodes`, one of its longest
paths (`nx.dag_longest_path`), and the last of the simple paths between two nodes by increasing length (`nx.shortest_simple_paths`;
`none` is NetworkXNoPath; from a node to itself, the path is this node).  The nodes are the numbers of the blocks, then of the non-block
variables (workflow/core.py 417-419, 1176).  Used for graph.py 90-98. -/
structure Part where
  nodes : List Nat
  longest : List Nat
  path : Nat → Nat → Option (List Nat)

/-- `for node in longest_path: columns[node] = longest_path.index(node)`: graph.py 86-87. -/
def placeLongest (longest : List Nat) : List Nat → List (Nat × Nat) → List (Nat × Nat)
  | [], columns => columns
  | n :: ns, columns => placeLongest longest ns (Dict.set columns n (longest.idxOf n))

/-- The loop on the paths which lead to a node: graph.py 95-98.  Paths are not empty. -/
def placeAfter (node : Nat) : List (List Nat) → List (Nat × Nat) → Except PyErr (List (Nat × Nat))
  | [], columns => .ok columns
  | p :: ps, columns => match p.head? with
    | none => .error .indexError
    | some h => match columns.lookup h with
      | none => .error .keyError
      | some c => match columns.lookup node with
        | none => placeAfter node ps (Dict.set columns node (c + p.length - 1))
        | some old =>
          if old < c + p.length - 1 then placeAfter node ps (Dict.set columns node (c + p.length - 1))
          else placeAfter node ps columns

/-- One step of the loop on the nodes out of the longest path: graph.py 90-98, with `get_paths_from_to`: 69-76.  Simplification:
`len(longest_path) - len(path)` is never negative, since no path is longer than the longest. -/
def placeNode (P : Part) (last node : Nat) (columns : List (Nat × Nat)) : Except PyErr (List (Nat × Nat)) :=
  match P.path node last with
  | some p => .ok (Dict.set columns node (P.longest.length - p.length))
  | none => placeAfter node (P.nodes.filterMap fun o => P.path o node) columns

/-- The loop on the nodes out of the longest path: graph.py 89-98. -/
def placeOthers (P : Part) (last : Nat) : List Nat → List (Nat × Nat) → Except PyErr (List (Nat × Nat))
  | [], columns => .ok columns
  | n :: ns, columns => match placeNode P last n columns with
    | .error e => .error e
    | .ok columns => placeOthers P last ns columns

/-- `get_column_by_node`: graph.py 79-100. -/
def columnByNode (P : Part) : Except PyErr (List (Nat × Nat)) :=
  match P.longest.getLast? with
  | none => .error .indexError
  | some last => placeOthers P last (P.nodes.filter fun n => n ∉ P.longest) (placeLongest P.longest P.longest [])

/-- The loop of `graph_columns`: workflow/core.py 1193-1196. -/
def groupColumns : List (Nat × Nat) → List (Nat × List Nat) → List (Nat × List Nat)
  | [], groups => groups
  | (n, c) :: rest, groups => groupColumns rest (Dict.set groups c ((groups.lookup c).getD [] ++ [n]))

/-- `graph_columns`: workflow/core.py 1186-1197. -/
def graphColumns (P : Part) : Except PyErr (List (List Nat)) :=
  match columnByNode P with
  | .error e => .error e
  | .ok columns => .ok ((groupColumns columns []).map (·.2))

/-- `layout`, on the connected parts of the graph: workflow/core.py 1199-1209. -/
def layout : List Part → Except PyErr (List (List (List Nat)))
  | [] => .ok []
  | P :: Ps => match graphColumns P with
    | .error e => .error e
    | .ok g => match layout Ps with
      | .error e => .error e
      | .ok gs => .ok (g :: gs)

/-- `Workflow.layout`: workflow/core.py 1199-1209.  `parts` is what networkx answers on the graph of the given edges. -/
def layoutOf (W : Workflow α) (parts : List (Nat × Nat) → List Part) : Except PyErr (List (List (List Nat))) :=
  match layoutEdges W W.pipes with
  | .error e => .error e
  | .ok es => layout (parts es)

end DC.Wkf
