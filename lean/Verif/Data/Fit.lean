import Verif.Data.Stats
/-
Clustering, distances and singular values of a dataset.
Sources: dessia_common/datatools/cluster.py 327-514, 546-593; dessia_common/datatools/dataset.py 509-556, 588-626;
dessia_common/datatools/metrics.py 202-213.
The algorithms of scikit-learn, scipy and numpy are parameters.
-/
namespace DC.Data

variable {ω : Type}

/-- `std`: metrics.py 202-213. -/
noncomputable def stdDev (v : List ℝ) : ℝ := Real.sqrt (variance v)

/-- What `StandardScaler` divides a column by, 1 for a constant one: dataset.py 625.  Simplification: scikit-learn also takes a column
as constant when its variance is a rounding error. -/
noncomputable def scaleBy (col : List ℝ) : ℝ := if stdDev col = 0 then 1 else stdDev col

/-- A row scaled by `StandardScaler`: dataset.py 625. -/
noncomputable def scaleRow (m : List (List ℝ)) (row : List ℝ) : List ℝ :=
  row.mapIdx fun j x => (x - mean (column m j)) / scaleBy (column m j)

/-- Whether a list of lists makes an array of two dimensions which is not empty, as scikit-learn and numpy want: dataset.py 617, 625. -/
def isArray (m : List (List ℝ)) : Bool :=
  match m with
  | [] => false
  | r :: _ => r.length ≠ 0 && m.all fun row => row.length = r.length

/-- `_scale_data`: dataset.py 623-626. -/
noncomputable def scaleData (m : List (List ℝ)) : Except PyErr (List (List ℝ)) :=
  if isArray m then .ok (m.map (scaleRow m)) else .error .valueError

/-- `fit_cluster`, the labels of the model: cluster.py 546-570.  `alg` is the model of scikit-learn, which gives the labels of the rows of a
matrix. -/
noncomputable def fitCluster (alg : List (List ℝ) → Except PyErr (List Int)) (m : List (List ℝ)) (scaling : Bool) :
    Except PyErr (List Int) :=
  if scaling then
    match scaleData m with
    | .error e => .error e
    | .ok s => alg s
  else alg m

/-- `from_agglomerative_clustering`, `from_kmeans` and `from_dbscan`: cluster.py 327-404, 406-452, 454-514. -/
noncomputable def fromClustering (O : Objs ω ℝ) (alg : List (List ℝ) → Except PyErr (List Int)) (scaling : Bool) (name : String)
    (d : Ds ω ℝ) : Except PyErr (Ds ω ℝ) :=
  match d.getMatrix O with
  | .error e => .error e
  | .ok dm =>
    match fitCluster alg dm.2 scaling with
    | .error e => .error e
    | .ok labels => .ok (Ds.initC d.objects (some labels) name)

/-- `list_agglomerative_clustering`, `list_kmeans` and `list_dbscan`: cluster.py 572-593. -/
noncomputable def listClustering (O : Objs ω ℝ) (alg : List (List ℝ) → Except PyErr (List Int)) (scaling : Bool) (name : String)
    (data : List ω) : Except PyErr (Ds ω ℝ) :=
  fromClustering O alg scaling name (Ds.init data "")

/-! ### Distances -/

/-- `_set_distance_kwargs`, on the argument `p`: dataset.py 552-556. -/
def setPower (method : String) (p : Option ℝ) : Option ℝ :=
  match p with
  | some q => some q
  | none => if method = "minkowski" then some 2 else none

/-- One entry of `squareform(pdist(matrix))`: dataset.py 549. -/
def squareEntry (dist : List ℝ → List ℝ → ℝ) (m : List (List ℝ)) (i j : Nat) : ℝ :=
  if i = j then 0 else
    match m[min i j]?, m[max i j]? with
    | some x, some y => dist x y
    | _, _ => 0

/-- `distance_matrix`: dataset.py 509-550.  `dist` gives the distances of scipy for a method and its argument `p`; the other arguments are
left out. -/
def Ds.distanceMatrix (O : Objs ω ℝ) (dist : String → Option ℝ → List ℝ → List ℝ → ℝ) (method : String) (p : Option ℝ) (d : Ds ω ℝ) :
    Except PyErr (List (List ℝ)) :=
  match d.getMatrix O with
  | .error e => .error e
  | .ok dm =>
    if dm.2 = [] then .error .valueError
    else .ok ((List.range dm.2.length).map fun i => (List.range dm.2.length).map fun j =>
      squareEntry (dist method (setPower method p)) dm.2 i j)

/-! ### Singular values -/

/-- `npy.array(self.matrix) - npy.mean(self.matrix, axis=0)`: dataset.py 611. -/
noncomputable def centerRows (m : List (List ℝ)) : List (List ℝ) := m.map fun row => row.mapIdx fun j x => x - mean (column m j)

/-- `singular_values / npy.sum(singular_values)`: dataset.py 613; `none` is NaN, that numpy gives for zero divided by zero. -/
noncomputable def shares (sv : List ℝ) : List (Option ℝ) := sv.map fun x => if sv.sum = 0 then none else some (x / sv.sum)

/-- One of `singular_points`: dataset.py 616-619.  NaN is different from zero. -/
noncomputable def singularPoint (idx : Nat) (value : Option ℝ) : Nat × Option ℝ :=
  (idx + 1, if value = some 0 then some (1 / 10 ^ 16) else value)

/-- `singular_values`: dataset.py 588-620.  `svd` gives the singular values of a matrix. -/
noncomputable def Ds.singularValues (O : Objs ω ℝ) (svd : List (List ℝ) → List ℝ) (d : Ds ω ℝ) :
    Except PyErr (List (Option ℝ) × List (Nat × Option ℝ)) :=
  match d.getMatrix O with
  | .error e => .error e
  | .ok dm =>
    match scaleData (centerRows dm.2) with
    | .error e => .error e
    | .ok s => .ok (shares (svd (transpose s)), (shares (svd (transpose s))).mapIdx singularPoint)

end DC.Data
