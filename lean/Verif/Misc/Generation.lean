import Verif.Values.Basic
/-
Generation of solutions along a decision tree.
Source: dessia_common/generation.py.

The package `dectree` is not part of the code: `bump`, `Regular.next` and `Decision.next` give the order in which its trees
are walked by `NextNode`, first the children of a node, then the nodes after it, when each level has at least one possibility.
The three other orders (`NextSortedNode`, `NextUniqueNode`, `NextSortedUniqueNode`) are not modelled.
-/
namespace DC.Tree

/-- What a class of generators defines: generation.py 40-84.  Simplification: these methods are functions, which do not
raise. -/
structure Methods (M : Type) where
  isVectorValid : List Nat → Bool := fun _ => true
  modelFromVector : List Nat → M
  isModelValid : M → Bool
  numberPossibilitiesFromModel : M → Nat := fun _ => 0

/-- `number_possibilities_from_vector`: generation.py 62-69. -/
def Methods.numberPossibilitiesFromVector {M : Type} (g : Methods M) (v : List Nat) : Nat :=
  g.numberPossibilitiesFromModel (g.modelFromVector v)

/-- The node after a node and its descendants, both written from their ends: `NextNode` of `dectree`.  Each index comes with
the number of possibilities of its level.  Used for generation.py 186, 202. -/
def bump : List (Nat × Nat) → Option (List (Nat × Nat))
  | [] => none
  | (i, n) :: up => if i + 1 < n then some ((i + 1, n) :: up) else bump up

/-- The vector of a node: `current_node`.  Used for generation.py 170-202. -/
def path (s : List (Nat × Nat)) : List Nat := (s.map (·.1)).reverse

/-! ### Trees with the same numbers of possibilities everywhere -/

/-- The state of a `dt.RegularDecisionTree`: generation.py 167. -/
structure Regular where
  node : List (Nat × Nat)
  finished : Bool

/-- `dt.RegularDecisionTree(number_possibilities)`: generation.py 167.  The first node is `[0]`. -/
def Regular.new (np : List Nat) : Regular :=
  match np with
  | [] => ⟨[], true⟩
  | n :: _ => ⟨[(0, n)], false⟩

/-- `NextNode(valid)` on a `dt.RegularDecisionTree`: generation.py 186, 202. -/
def Regular.next (np : List Nat) (t : Regular) (valid : Bool) : Regular :=
  match (if valid then np[t.node.length]? else none) with
  | some n => ⟨(0, n) :: t.node, false⟩
  | none =>
    match bump t.node with
    | some node => ⟨node, false⟩
    | none => ⟨t.node, true⟩

/-- `generate` of a `RegularDecisionTreeGenerator`, with neither `sorted_nodes` nor `unique_nodes`, for at most `n` rounds of its
loop: generation.py 170-202.  The result is what is yielded, and the tree which the generator keeps. -/
def generateRegular {M : Type} (g : Methods M) (np : List Nat) : Nat → Regular → List M × Regular
  | 0, t => ([], t)
  | n + 1, t =>
    if t.finished then ([], t)
    else
      let valid := g.isVectorValid (path t.node) && g.isModelValid (g.modelFromVector (path t.node))
      let yielded := if valid && t.node.length - 1 == np.length - 1 then [g.modelFromVector (path t.node)] else []
      let r := generateRegular g np n (t.next np valid)
      (yielded ++ r.1, r.2)

/-- The first value taken from `generate`, and the tree which the generator keeps while it is suspended at this `yield`:
generation.py 187-200. -/
def firstRegular {M : Type} (g : Methods M) (np : List Nat) : Nat → Regular → Option (M × Regular)
  | 0, _ => none
  | n + 1, t =>
    if t.finished then none
    else
      let valid := g.isVectorValid (path t.node) && g.isModelValid (g.modelFromVector (path t.node))
      if valid && t.node.length - 1 == np.length - 1 then some (g.modelFromVector (path t.node), t)
      else firstRegular g np n (t.next np valid)

/-! ### Trees whose numbers of possibilities depend on the models -/

/-- The state of a `dt.DecisionTree`: generation.py 97. -/
structure Decision where
  node : List (Nat × Nat)
  /-- the number of possibilities set for the current node -/
  possibilities : Nat
  finished : Bool

/-- `dt.DecisionTree()`: generation.py 97.  The first node is the root. -/
def Decision.new : Decision := ⟨[], 0, false⟩

/-- `SetCurrentNodeNumberPossibilities(n)`: generation.py 108, 123. -/
def Decision.set (t : Decision) (n : Nat) : Decision := { t with possibilities := n }

/-- `NextNode(valid)` on a `dt.DecisionTree`: generation.py 129. -/
def Decision.next (t : Decision) (valid : Bool) : Decision :=
  if valid && 0 < t.possibilities then ⟨(0, t.possibilities) :: t.node, 0, false⟩
  else
    match bump t.node with
    | some node => ⟨node, 0, false⟩
    | none => { t with finished := true }

/-- The loop of `generate` of a `DecisionTreeGenerator`, for at most `n` rounds: generation.py 109-129. -/
def decisionLoop {M : Type} (g : Methods M) : Nat → Decision → List M × Decision
  | 0, t => ([], t)
  | n + 1, t =>
    if t.finished then ([], t)
    else if g.isVectorValid (path t.node) && g.isModelValid (g.modelFromVector (path t.node)) then
      let number := g.numberPossibilitiesFromModel (g.modelFromVector (path t.node))
      let yielded := if number == 0 then [g.modelFromVector (path t.node)] else []
      let r := decisionLoop g n ((t.set number).next true)
      (yielded ++ r.1, r.2)
    else decisionLoop g n (t.next false)

/-- `generate` of a `DecisionTreeGenerator`: generation.py 100-129. -/
def generateDecision {M : Type} (g : Methods M) (n : Nat) (t : Decision) : List M × Decision :=
  decisionLoop g n (t.set (g.numberPossibilitiesFromModel (g.modelFromVector (path t.node))))

end DC.Tree
