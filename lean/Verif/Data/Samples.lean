import Verif.Data.Stats
import Verif.Data.Plot
import Verif.Util.PyDict
/-
Plots of a dataset: its samples, its scatter matrix, its parallel plot and its histogram.
Sources: dessia_common/datatools/dataset.py 627-692; dessia_common/datatools/cluster.py 296-297, 307-327.
The plots themselves belong to plot_data: they are data here.
-/
namespace DC.Data

variable {ω F : Type}

/-- `plot_data.Sample`, as made at dataset.py 682: its values, numbers or the label of a cluster, the path of its object and its name. -/
structure Sample (F : Type) where
  values : List (String × (F ⊕ Int))
  path : String
  name : String

/-- The key of the label in a sample: cluster.py 309. -/
def clusterLabel : String := "Cluster Label"

/-- One item of `sample_values`: dataset.py 679. -/
def sampleStep (row : List F) (d : List (String × (F ⊕ Int))) (ac : String × Nat) : Except PyErr (List (String × (F ⊕ Int))) :=
  match Py.get row (ac.2 : Int) with
  | .error e => .error e
  | .ok v => .ok (Dict.set d ac.1 (Sum.inl v))

/-- `sample_values`: dataset.py 679. -/
def valuesByName (names : List String) (row : List F) : Except PyErr (List (String × (F ⊕ Int))) :=
  names.zipIdx.foldlM (sampleStep row) []

/-- `sample.values["Cluster Label"] = self.labels[row]`, in a clustered dataset: cluster.py 307-310. -/
def addLabel (labels : Option (List Int)) (row : Nat) (s : Sample F) : Except PyErr (Sample F) :=
  match labels with
  | none => .ok s
  | some ls =>
    match Py.get ls (row : Int) with
    | .error e => .error e
    | .ok l => .ok { s with values := Dict.set s.values clusterLabel (Sum.inr l) }

/-- `_object_to_sample`: dataset.py 678-682, cluster.py 307-310.  `nameOf` gives the names of objects. -/
def objectToSample (nameOf : ω → String) (names : List String) (m : List (List F)) (labels : Option (List Int)) (ref : String) (o : ω)
    (row : Nat) : Except PyErr (Sample F) :=
  match Py.get m (row : Int) with
  | .error e => .error e
  | .ok r =>
    match valuesByName names r with
    | .error e => .error e
    | .ok values => addLabel labels row
      ⟨values, ref ++ "/dessia_objects/" ++ toString row, if nameOf o ≠ "" then nameOf o else "Sample " ++ toString row⟩

/-- `_to_samples`: dataset.py 684-686. -/
def Ds.toSamples (O : Objs ω F) (nameOf : ω → String) (ref : String) (d : Ds ω F) : Except PyErr (List (Sample F)) :=
  match d.getMatrix O with
  | .error e => .error e
  | .ok dm => d.objects.zipIdx.mapM fun or => objectToSample nameOf (d.commonAttributes O).2 dm.2 d.labels ref or.1 or.2

/-- The plots of plot_data made at dataset.py 660, 670, 672. -/
inductive Panel
  | scatter (x y : String) (tooltip : List String)
  | histogram (x : String)
  deriving DecidableEq

/-- `_histogram_unic_value`: dataset.py 667-673. -/
def histogramUnic [DecidableEq F] (m : List (List F)) (idx : Nat) (a : String) : Except PyErr Panel :=
  match m.mapM fun row => Py.get row (idx : Int) with
  | .error e => .error e
  | .ok col => if (distinctOf col).length = 1 then .ok (.scatter a a []) else .ok (.histogram a)

/-- `_tooltip_attributes`: dataset.py 675-676, cluster.py 296-297. -/
def Ds.tooltip (O : Objs ω F) (d : Ds ω F) : List String :=
  match d.labels with
  | none => (d.commonAttributes O).2
  | some _ => (d.commonAttributes O).2 ++ [clusterLabel]

/-- The subplots of `_build_multiplot`: dataset.py 655-661. -/
def subplots [DecidableEq F] (names : List String) (m : List (List F)) (tooltip : List String) : Except PyErr (List Panel) :=
  (names.flatMap fun line => names.zipIdx.map fun cj => (line, cj)).mapM fun p =>
    if p.1 = p.2.1 then histogramUnic m p.2.2 p.2.1 else .ok (.scatter p.1 p.2.1 tooltip)

/-- `_point_families`, the indices of each family: dataset.py 688-689, cluster.py 312-327. -/
def Ds.families (d : Ds ω F) : List (List Nat) :=
  match d.labels with
  | none => [List.range d.objects.length]
  | some labels => pointFamilies labels

/-- What the plots of a dataset show: dataset.py 663, 692, 651. -/
inductive Shown (F : Type)
  | matrix (plots : List Panel) (elements : List (Sample F)) (families : List (List Nat))
  | parallel (elements : List (Sample F)) (axes : List String)
  | single (panel : Panel) (elements : List (Sample F))

/-- `plot_scatter_matrix`: dataset.py 627-634. -/
def Ds.plotScatterMatrix [DecidableEq F] (O : Objs ω F) (nameOf : ω → String) (ref : String) (d : Ds ω F) : Except PyErr (Shown F) :=
  match d.toSamples O nameOf ref with
  | .error e => .error e
  | .ok samples =>
    if (d.commonAttributes O).2.length > 1 then
      match d.getMatrix O with
      | .error e => .error e
      | .ok dm =>
        match subplots (d.commonAttributes O).2 dm.2 (d.tooltip O) with
        | .error e => .error e
        | .ok plots => .ok (.matrix plots samples d.families)
    else .error .valueError

/-- `plot_histogram`: dataset.py 647-652. -/
def Ds.plotHistogram [DecidableEq F] (O : Objs ω F) (nameOf : ω → String) (ref : String) (d : Ds ω F) : Except PyErr (Shown F) :=
  match d.toSamples O nameOf ref with
  | .error e => .error e
  | .ok samples =>
    match (d.commonAttributes O).2 with
    | [] => .error .indexError
    | a :: _ =>
      match d.getMatrix O with
      | .error e => .error e
      | .ok dm =>
        match histogramUnic dm.2 0 a with
        | .error e => .error e
        | .ok p => .ok (.single p samples)

/-- `plot_parallel_plot`: dataset.py 636-645, 691-692.  `axes` computes `_parallel_plot_attr` from the attributes (`parallelAxes`);
`none` when it does not end. -/
def Ds.plotParallel [DecidableEq F] (O : Objs ω F) (nameOf : ω → String) (axes : List String → Option (Except PyErr (List String)))
    (ref : String) (d : Ds ω F) : Option (Except PyErr (Shown F)) :=
  match d.toSamples O nameOf ref with
  | .error e => some (.error e)
  | .ok samples =>
    if (d.commonAttributes O).2.length > 1 then (axes (d.commonAttributes O).2).map fun r => r.map fun l => .parallel samples l
    else if (d.commonAttributes O).2.length = 1 then some (d.plotHistogram O nameOf ref)
    else some (.error .valueError)

end DC.Data
