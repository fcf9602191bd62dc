import Verif.Values.Basic
/-
Axes of the parallel plot of a dataset.  Source: dessia_common/datatools/dataset.py 691-780.
-/
namespace DC.Data

variable {A : Type} [DecidableEq A]

/-- The elements of `set(l)`, in order of first occurrence.  Used for dataset.py 700-729. -/
def distinctOf : List A → List A
  | [] => []
  | x :: l => x :: (distinctOf l).filter (· ≠ x)

/-- The pairs (attr1, attr2), attr2 coming after attr1: the two nested loops of `_get_correlations`, dataset.py 704-716, 722-724,
attributes satisfying `skip` being passed over. -/
def pairsOf (skip : A → Bool) : List A → List (A × A)
  | [] => []
  | a :: l => (if skip a then [] else ((l.filter fun b => !skip b && b ≠ a).map fun b => (a, b))) ++ pairsOf skip l

/-- `_get_correlations`: dataset.py 700-729.  `constant a` says that the attribute `a` has the same value on all objects, `byScore`
is the decreasing sort of the associations along their scores (any permutation in the theorems), `setOrder` is the order in
which Python enumerates a set.  When there is no association, scores are decreasing so that the order of the pairs is kept. -/
def correlations (setOrder : List A → List A) (byScore : List (A × A) → List (A × A)) (constant : A → Bool) (common : List A) :
    List (A × A) × List A :=
  if pairsOf constant common = [] then (pairsOf (fun _ => false) common, [])
  else (byScore (pairsOf constant common), setOrder (distinctOf (common.filter constant)))

/-- The first association sharing an attribute with `p`, and the associations without it: dataset.py 742-747. -/
def takeSharing (p : A × A) : List (A × A) → Option ((A × A) × List (A × A))
  | [] => none
  | q :: l =>
    if q.1 = p.1 ∨ q.1 = p.2 ∨ q.2 = p.1 ∨ q.2 = p.2 then some (q, l)
    else (takeSharing p l).map fun r => (r.1, q :: r.2)

/-- The loop of `_get_attribute_trios`: dataset.py 736-748.  `all` is `set_association`, `picked` is `picked_attr`.  `fuel` bounds the
number of turns; `none` is a loop which does not end within the fuel. -/
def triosLoop (all : List A) : Nat → List A → List (A × A) → Option (Except PyErr (List (List A)))
  | 0, _, _ => none
  | fuel + 1, picked, assoc =>
    if (distinctOf picked).length = (distinctOf all).length then some (.ok [])
    else match assoc with
      | [] => some (.error .indexError)
      | p :: rest =>
        match takeSharing p rest with
        | none => (triosLoop all fuel (picked ++ [p.1, p.2]) rest).map fun r => r.map ([p.1, p.2] :: ·)
        | some (q, rest') =>
          (triosLoop all fuel (picked ++ [p.1, p.2, q.1, q.2]) rest').map fun r => r.map ([p.1, p.2, q.1, q.2] :: ·)

/-- `_get_attribute_trios`: dataset.py 731-749. -/
def trios (assoc : List (A × A)) : Option (Except PyErr (List (List A))) :=
  triosLoop (assoc.flatMap fun p => [p.1, p.2]) (assoc.length + 1) [] assoc

/-- `_new_attributes_trio`: dataset.py 760-767. -/
def newAttributesTrio (setOrder : List A → List A) (serie : List A) : Except PyErr (List A) :=
  if serie.length < 3 then .ok serie
  else match serie.find? fun a => serie.count a == 2 with
    | none => .error .valueError
    | some mid =>
      match setOrder (distinctOf (serie.filter (· ≠ mid))) with
      | x :: y :: _ => .ok [x, mid, y]
      | _ => .error .stopIteration

/-- The loop on the instances of `x` in the serie, from the instance `i`, for `n` instances: dataset.py 773-781.  It returns the
attribute to add, if any. -/
def partner (ordered serie : List A) (x : A) : Nat → Nat → Except PyErr (Option A)
  | _, 0 => .ok none
  | i, n + 1 =>
    match (serie.drop (i * 2)).findIdx? (· == x) with
    | none => .error .valueError
    | some k =>
      let idx := i * 2 + k
      match serie[idx + 1 - 2 * (idx % 2)]? with
      | none => .error .indexError
      | some a => if a ∈ ordered then partner ordered serie x (i + 1) n else .ok (some a)

/-- One side of `_new_sided_attribute`: dataset.py 771-781. -/
def sided (ordered serie : List A) (front : Bool) : Except PyErr (List A) :=
  match (if front then ordered.head? else ordered.getLast?) with
  | none => .error .indexError
  | some x => do
    match ← partner ordered serie x 0 (serie.count x) with
    | none => .ok ordered
    | some a => .ok (if front then a :: ordered else ordered ++ [a])

/-- `_new_sided_attribute`: dataset.py 769-782. -/
def newSided (ordered serie : List A) : Except PyErr (List A) := do
  sided (← sided ordered serie true) serie false

/-- `_trios_list_to_parallel_axes`: dataset.py 751-758. -/
def axesLoop (setOrder : List A → List A) : List A → List (List A) → Except PyErr (List A)
  | ordered, [] => .ok ordered
  | ordered, serie :: series =>
    if ordered.any (· ∈ serie) then do axesLoop setOrder (← newSided ordered serie) series
    else do axesLoop setOrder (ordered ++ (← newAttributesTrio setOrder serie)) series

/-- `_parallel_plot_attr`: dataset.py 694-698. -/
def parallelAxes (setOrder : List A → List A) (byScore : List (A × A) → List (A × A)) (constant : A → Bool) (common : List A) :
    Option (Except PyErr (List A)) :=
  let (assoc, constants) := correlations setOrder byScore constant common
  (trios assoc).map fun r => do .ok (constants ++ (← axesLoop setOrder [] (← r)))

end DC.Data
