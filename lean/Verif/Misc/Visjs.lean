import Verif.Values.Basic
/-
The data shown for a graph.
Source: dessia_common/displays.py 108-160.

The package `networkx` is not part of the code: a graph is the list of its nodes, without repetition, and the list of its
edges, each with its attributes.  The positions computed by `kamada_kawai_layout` are given.
-/
namespace DC.Vis

/-- A node: a string, an integer, or another object (a number tells them apart).  Used for displays.py 122-127. -/
inductive NodeKey where
  | str (s : String)
  | int (i : Int)
  | other (n : Nat)
  deriving DecidableEq

/-- The attributes of a node that are read: displays.py 115-145.  Simplification: their values are strings. -/
structure NodeAttrs where
  name : Option String := none
  label : Option String := none
  shape : Option String := none
  color : Option String := none

/-- The attributes of an edge that are read: displays.py 152-159.  Simplification: their values are strings. -/
structure EdgeAttrs where
  headType : Option String := none
  color : Option String := none

/-- A `Graph` or a `DiGraph`.  Used for displays.py 108-160. -/
structure Graph where
  name : String
  directed : Bool
  nodes : List (NodeKey × NodeAttrs)
  edges : List (NodeKey × NodeKey × EdgeAttrs)

/-- What is given for a node: displays.py 116-145. -/
structure NodeData where
  id : Nat
  pos : Option (Rat × Rat)
  label : String
  title : Option String
  shape : String
  color : Option String
  deriving DecidableEq

/-- The `arrows` of an edge: displays.py 154-157. -/
inductive Arrows where
  | none
  | to
  | typed (type : String)
  deriving DecidableEq

/-- What is given for an edge: displays.py 153-159. -/
structure EdgeData where
  source : Nat
  target : Nat
  arrows : Arrows
  color : Option String
  deriving DecidableEq

/-- `networkx_to_visjs_data`: displays.py 108-160. -/
structure Data where
  name : String
  nodes : List NodeData
  edges : List EdgeData
  deriving DecidableEq

/-- `"circular"`.  Used for displays.py 114-145. -/
def circular : String := "circular"

/-- `"[ ]"`.  Used for displays.py 121-134. -/
def brackets : String := "[ ]"

/-- The label of a node which has neither a name nor a label: displays.py 122-127. -/
def ownLabel : NodeKey → String
  | .str s => s
  | .int i => toString i
  | .other _ => ""

/-- The label and the title of a node: displays.py 121-134. -/
def labels (k : NodeKey) (a : NodeAttrs) : Except PyErr (String × Option String) :=
  match a.name, a.label with
  | none, none => .ok (if 10 < (ownLabel k).length then brackets else ownLabel k, some (ownLabel k))
  | some n, none => .ok (n, none)
  | some n, some l => .ok (n ++ l, none)
  | none, some _ => .error .keyError

/-- One round of the loop on the nodes: displays.py 114-145. -/
def nodeData (pos : NodeKey → Option (Rat × Rat)) (i : Nat) (k : NodeKey) (a : NodeAttrs) : Except PyErr NodeData :=
  match labels k a with
  | .error e => .error e
  | .ok (l, t) => .ok { id := i, pos := pos k, label := l, title := t, shape := a.shape.getD circular, color := a.color }

/-- The loop on the nodes, from the index `i` on: displays.py 114-145. -/
def nodesData (pos : NodeKey → Option (Rat × Rat)) : Nat → List (NodeKey × NodeAttrs) → Except PyErr (List NodeData)
  | _, [] => .ok []
  | i, (k, a) :: l =>
    match nodeData pos i k a with
    | .error e => .error e
    | .ok d =>
      match nodesData pos (i + 1) l with
      | .error e => .error e
      | .ok r => .ok (d :: r)

/-- `list_nodes.index(node)`: displays.py 150-151. -/
def indexOf (k : NodeKey) : List NodeKey → Except PyErr Nat
  | [] => .error .valueError
  | x :: l =>
    if x = k then .ok 0
    else
      match indexOf k l with
      | .error e => .error e
      | .ok i => .ok (i + 1)

/-- One round of the loop on the edges: displays.py 149-160. -/
def edgeData (directed : Bool) (nodes : List NodeKey) (u v : NodeKey) (a : EdgeAttrs) : Except PyErr EdgeData :=
  match indexOf u nodes with
  | .error e => .error e
  | .ok i =>
    match indexOf v nodes with
    | .error e => .error e
    | .ok j =>
      .ok { source := i, target := j, color := a.color
            arrows := if directed then (match a.headType with | some t => .typed t | none => .to) else .none }

/-- The loop on the edges: displays.py 149-160. -/
def edgesData (directed : Bool) (nodes : List NodeKey) : List (NodeKey × NodeKey × EdgeAttrs) → Except PyErr (List EdgeData)
  | [] => .ok []
  | (u, v, a) :: l =>
    match edgeData directed nodes u v a with
    | .error e => .error e
    | .ok d =>
      match edgesData directed nodes l with
      | .error e => .error e
      | .ok r => .ok (d :: r)

/-- `networkx_to_visjs_data`: displays.py 108-160. -/
def toVisjs (pos : NodeKey → Option (Rat × Rat)) (g : Graph) : Except PyErr Data :=
  match nodesData pos 0 g.nodes with
  | .error e => .error e
  | .ok ns =>
    match edgesData g.directed (g.nodes.map (·.1)) g.edges with
    | .error e => .error e
    | .ok es => .ok ⟨g.name, ns, es⟩

end DC.Vis
