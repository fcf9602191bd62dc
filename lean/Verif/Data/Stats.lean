import Verif.Data.Metrics
import Verif.Data.Cluster
/-
Statistics of a dataset and of its clusters.
Sources: dessia_common/datatools/dataset.py 440-507; dessia_common/datatools/cluster.py 154-232.
-/
namespace DC.Data

variable {ω F : Type} [Field F] [LinearOrder F]

/-- `[mean(row) for row in zip(*self.matrix)]`: dataset.py 440-454.  The caches are dropped. -/
def Ds.mean (O : Objs ω F) (d : Ds ω F) : Except PyErr (List F) :=
  match d.getMatrix O with
  | .error e => .error e
  | .ok dm => (transpose dm.2).mapM pyMean

/-- `variances`: dataset.py 472-486. -/
def Ds.variances (O : Objs ω F) (d : Ds ω F) : Except PyErr (List F) :=
  match d.getMatrix O with
  | .error e => .error e
  | .ok dm => .ok ((transpose dm.2).map variance)

/-- `covariance_matrix`: dataset.py 488-507, for at least two objects. -/
def Ds.covarianceMatrix (O : Objs ω F) (d : Ds ω F) : Except PyErr (CovResult F) :=
  match d.getMatrix O with
  | .error e => .error e
  | .ok dm => .ok (Data.covarianceMatrix (transpose dm.2))

/-- `mean_clusters` of a dataset of datasets: cluster.py 154-182.  `self[:]` has the same elements. -/
def Ds.meanClustersNested (O : Objs ω F) (c : Ds (Ds ω F) F) : Except PyErr (List (List F)) :=
  match c.objects with
  | [] => .error .indexError
  | subs => subs.mapM fun s => s.mean O

/-- `mean_clusters` of a dataset of objects which are not datasets: cluster.py 154-182.  `order` and `clusters` are as for
`clustered_sublists`. -/
def Ds.meanClusters (O : Objs ω F) (order clusters : List Int) (name : String) (objects : List ω) (labels : List Int) :
    Except PyErr (List (List F)) :=
  match objects with
  | [] => .error .indexError
  | _ :: _ =>
    match Ds.clusteredSublists (F := F) order clusters name objects labels with
    | .error e => .error e
    | .ok c => c.meanClustersNested O

/-- The distances of the rows of a cluster to a point: cluster.py 230-231.  `dist` stands for `cdist` with the method and its
arguments. -/
def distancesTo (O : Objs ω F) (dist : List F → List F → F) (m : List F) (s : Ds ω F) : Except PyErr (List F) :=
  match s.getMatrix O with
  | .error e => .error e
  | .ok dm => .ok (dm.2.map (dist m))

/-- `cluster_distances` of a dataset of objects which are not datasets: cluster.py 184-232. -/
def Ds.clusterDistances (O : Objs ω F) (dist : List F → List F → F) (order clusters : List Int) (name : String) (objects : List ω)
    (labels : List Int) : Except PyErr (List (List F)) :=
  match objects with
  | [] => .error .indexError
  | _ :: _ =>
    match Ds.clusteredSublists (F := F) order clusters name objects labels with
    | .error e => .error e
    | .ok c =>
      match c.meanClustersNested O with
      | .error e => .error e
      | .ok means => (means.zip c.objects).mapM fun p => distancesTo O dist p.1 p.2

end DC.Data
