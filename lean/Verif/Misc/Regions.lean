import Verif.Util.PyList
/-
Cutting the final branches of a graph, and extracting a region of it.
Source: dessia_common/graph.py 15-52.  networkx is a contract: graphs are lists of nodes and edges, without repetitions.
-/
namespace DC.Reg

variable {V : Type} [DecidableEq V]

/-- A `networkx.DiGraph`: its nodes and its edges, in order.  Used for graph.py 22. -/
structure Gr (V : Type) where
  nodes : List V
  edges : List (V × V)
deriving DecidableEq

/-- `graph.out_degree(node)`: graph.py 22. -/
def Gr.outDegree (g : Gr V) (v : V) : Nat := (g.edges.filter fun e => e.1 = v).length

/-- `graph.in_degree(node)`: graph.py 24. -/
def Gr.inDegree (g : Gr V) (v : V) : Nat := (g.edges.filter fun e => e.2 = v).length

/-- `nx.subgraph(graph, nodes)`, the induced graph: graph.py 33, 52. -/
def Gr.subgraph (g : Gr V) (ns : List V) : Gr V :=
  ⟨g.nodes.filter fun v => v ∈ ns, g.edges.filter fun e => e.1 ∈ ns ∧ e.2 ∈ ns⟩

/-- `nodes_to_delete`: graph.py 19-29.  `graph.predecessors(current_node)` is an iterator, whose `in_degree` is a view and never
equal to 1 (28-29): the inner loop goes through once at most. -/
def Gr.toDelete (g : Gr V) : List V := g.nodes.filter fun v => g.outDegree v = 0 ∧ g.inDegree v = 1

/-- The outer loop: graph.py 18-33.  The number bounds the rounds; each but the last removes a node. -/
def Gr.cutLoop : Nat → Gr V → Gr V
  | 0, g => g
  | n + 1, g => if g.toDelete.length = 0 then g else (g.subgraph (g.nodes.filter fun v => v ∉ g.toDelete)).cutLoop n

/-- `cut_tree_final_branches`: graph.py 15-35. -/
def Gr.cut (g : Gr V) : Gr V := g.cutLoop g.nodes.length

/-- The successors of a node, in order.  Used for graph.py 44-45. -/
def Gr.children (g : Gr V) (v : V) : List V := (g.edges.filter fun e => e.1 = v).map (·.2)

/-- The loop of `nx.dfs_edges` on the children of a node: the edges found and the nodes visited.  Library code, called at graph.py 44-45. -/
def dfsChildren (go : V → List V → List (V × V) × List V) (v : V) : List V → List V → List (V × V) × List V
  | [], seen => ([], seen)
  | c :: cs, seen =>
    if c ∈ seen then dfsChildren go v cs seen
    else
      ((v, c) :: (go c (c :: seen)).1 ++ (dfsChildren go v cs (go c (c :: seen)).2).1,
        (dfsChildren go v cs (go c (c :: seen)).2).2)

/-- `nx.dfs_edges` from a node, down to a depth: library code, called at graph.py 44-45. -/
def Gr.dfs (g : Gr V) : Nat → V → List V → List (V × V) × List V
  | 0, v, seen => dfsChildren (fun _ s => ([], s)) v (g.children v) seen
  | n + 1, v, seen => dfsChildren (g.dfs n) v (g.children v) seen

/-- The edges found from a node with `depth_limit=distance`: the children are visited even for a limit of 0.  Used for graph.py 44. -/
def Gr.dfsEdges (g : Gr V) (distance : Int) (v : V) : List (V × V) := (g.dfs (distance - 1).toNat v [v]).1

/-- `list(nx.dfs_successors(...))`, the keys only, those that have successors: graph.py 44. -/
def Gr.succs (g : Gr V) (distance : Int) (v : V) : List V := ((g.dfsEdges distance v).map (·.1)).eraseDups

/-- `list(nx.dfs_predecessors(...))`, the keys: graph.py 45. -/
def Gr.preds (g : Gr V) (distance : Int) (v : V) : List V := (g.dfsEdges distance v).map (·.2)

/-- The loop on the nodes: graph.py 41-50.  `ancestors` is `nx.ancestors`. -/
def Gr.regionLoop (g : Gr V) (ancestors : V → List V) (distance : Int) : List V → List V → Except PyErr (List V)
  | [], region => .ok region
  | v :: vs, region =>
    if v ∉ g.nodes then .error .valueError
    else g.regionLoop ancestors distance vs (region ++ g.succs distance v ++ g.preds distance v ++ ancestors v)

/-- `extract_region`: graph.py 38-52. -/
def Gr.extractRegion (g : Gr V) (ancestors : V → List V) (nodes : List V) (distance : Int) : Except PyErr (Gr V) :=
  match g.regionLoop ancestors distance nodes nodes with
  | .error e => .error e
  | .ok region => .ok (g.subgraph region)

end DC.Reg
