import Verif.Data.Dataset
import Verif.Util.Sort
/-
Clustered datasets: sublists per cluster, centroids, point families, Pareto labels.
Source: dessia_common/datatools/cluster.py 58-152, 254-327, 516-544.
The clustering algorithms (scikit-learn), distances (scipy) and plots are not modelled.
-/
namespace DC.Data

variable {ω F : Type}

/-- The distinct elements of a list, standing for `set(l)` where the order is not used: cluster.py 68. -/
def distinct (l : List Int) : List Int := l.foldl (fun acc x => if x ∈ acc then acc else acc ++ [x]) []

/-- `n_clusters`: cluster.py 65-70. -/
def nClusters (labels : List Int) : Nat := ((distinct labels).filter (· ≠ -1)).length

/-- The loop filling the sublists: cluster.py 142-143. `order` is the order in which Python enumerates `set(self.labels)`. -/
def fillSublists (order : List Int) (objects : List ω) : List (Int × Nat) → List (List ω) → Except PyErr (List (List ω))
  | [], subs => .ok subs
  | (label, idx) :: rest, subs =>
    match order.findIdx? (· == label) with
    | none => .error .valueError
    | some k => match objects[idx]? with
      | none => .error .indexError
      | some o => if k < subs.length then fillSublists order objects rest (subs.modify k (· ++ [o])) else .error .indexError

/-- `clustered_sublists`: cluster.py 105-152.  `order` is the enumeration of `set(self.labels)` and `clusters` the one of
`set(self.labels).difference({-1})`. -/
def Ds.clusteredSublists (order clusters : List Int) (name : String) (objects : List ω) (labels : List Int) :
    Except PyErr (Ds (Ds ω F) F) :=
  let tags := sortBy (fun a b : String => decide (a ≤ b)) (clusters.map toString) ++ (if -1 ∈ labels then ["outliers"] else [])
  let subs := List.replicate (nClusters labels) [] ++ (if -1 ∈ labels then [[]] else [])
  match fillSublists order objects labels.zipIdx subs with
  | .error e => .error e
  | .ok subs => .ok (Ds.initC (List.zipWith (fun tag sub => Ds.init sub (name ++ "_" ++ tag)) tags subs)
      (some (clusters ++ if -1 ∈ labels then [-1] else [])) (name ++ "_split"))

/-- The `min_idx`-th element, `min_idx` being the first place of the smallest distance: cluster.py 282-284. `min` raises a
ValueError on an empty list. -/
def nearest [LinearOrder F] (objects : List ω) (distances : List F) : Except PyErr ω :=
  match distances with
  | [] => .error .valueError
  | d :: ds =>
    let m := ds.foldl min d
    match distances.findIdx? (· == m) with
    | none => .error .valueError
    | some k => Py.get objects k

/-- `real_centroids[label] = ...`: cluster.py 284. -/
def putAt {α : Type} (l : List α) (i : Int) (x : α) : Except PyErr (List α) :=
  match Py.idx l.length i with
  | none => .error .indexError
  | some k => .ok (l.set k x)

/-- The loop of `cluster_real_centroids`: cluster.py 280-284.  `distances` are those of the elements of each cluster to its
mean; a place which is not filled holds `[]`, here `none`. -/
def centroidLoop [LinearOrder F] (subs : List (List ω)) (distances : List (List F)) :
    List Int → List (Option ω) → Except PyErr (List (Option ω))
  | [], acc => .ok acc
  | label :: labels, acc => do
    let ds ← Py.get distances label
    let sub ← Py.get subs label
    let o ← nearest sub ds
    let acc ← putAt acc label (some o)
    centroidLoop subs distances labels acc

/-- `cluster_real_centroids`, from the sublists: cluster.py 274-285. -/
def realCentroids [LinearOrder F] (subs : List (List ω)) (labels : List Int) (distances : List (List F)) : Except PyErr (List (Option ω)) :=
  centroidLoop subs distances labels (List.replicate labels.length none)

/-- `npy.where(npy.array(self.labels) == c)[0]`: cluster.py 318. -/
def indexesOf (labels : List Int) (c : Int) : List Nat := (List.range labels.length).filter fun i => labels[i]? == some c

/-- The indices held by the point families, in order: cluster.py 312-327. -/
def pointFamilies (labels : List Int) : List (List Nat) :=
  (List.range (nClusters labels)).map (fun (i : Nat) => indexesOf labels i) ++ (if -1 ∈ labels then [indexesOf labels (-1)] else [])

/-- `_merge_sublists`: cluster.py 287-294, the objects and the labels.  An empty first sublist is not a dataset any more once
sliced (dataset.py 105-106): an AttributeError is raised at the end, if the loop ends. -/
def mergeSublists (subs : List (List ω)) (labels : List Int) : Except PyErr (List ω × List Int) :=
  match subs, labels with
  | s :: subs, l :: labels =>
    if s = [] then .error .attributeError
    else .ok ((subs.zip labels).foldl (fun acc p => (acc.1 ++ p.1, acc.2 ++ List.replicate p.1.length p.2)) (s, List.replicate s.length l))
  | _, _ => .error .indexError

/-- `dessia_objects.extend(dataset)`: cluster.py 541-542.  Iterating over an empty dataset never ends (no IndexError is raised by
dataset.py 105-106): `none`. -/
def extendWith (objects sheet : List ω) : Option (List ω) := if sheet = [] then none else some (objects ++ sheet)

/-- `from_pareto_sheets`: cluster.py 536-544, from the result of `pareto_sheets`; `none` when it does not terminate. -/
def fromParetoSheets (sheets : List (List ω)) (rest : List ω) : Option (List ω × List Int) := do
  let acc ← sheets.zipIdx.foldlM (fun (acc : List ω × List Int) p => do
    let objects ← extendWith acc.1 p.1
    some (objects, acc.2 ++ List.replicate p.1.length (p.2 : Int))) ([], [])
  let objects ← extendWith acc.1 rest
  some (objects, acc.2 ++ List.replicate rest.length (sheets.length : Int))

end DC.Data
