import Verif.Util.PyList
import Verif.Filters.Model
import Verif.Data.Pareto
/-
Datasets and clustered datasets: selection, sum, sorting, common attributes, matrix.
Source: dessia_common/datatools/dataset.py 90-184, 284-438, 558-586, cluster.py 58-100, core.py 633-645.
-/
namespace DC.Data

/-- What a dataset reads of its objects.  `features` are the vector features of a class (core.py 640-645), `vector` is
`to_vector` (core.py 633-638), which has one value per feature, and `attr` is `getattr`. -/
structure Objs (ω F : Type) where
  cls : ω → Nat
  features : Nat → List String
  vector : ω → List F
  attr : ω → String → Option F
  aligned : ∀ o, (vector o).length = (features (cls o)).length

/-- A Dataset (dataset.py 90-97), or a ClusteredDataset if it has labels (cluster.py 58-63).  `common` and `matrix` are the
caches `_common_attributes` and `_matrix`. -/
structure Ds (ω F : Type) where
  objects : List ω
  name : String
  common : Option (List String)
  matrix : Option (List (List F))
  labels : Option (List Int)

variable {ω F : Type}

/-- `Dataset(objects, name)`: dataset.py 90-97. -/
def Ds.init (objects : List ω) (name : String) : Ds ω F := ⟨objects, name, none, none, none⟩

/-- `ClusteredDataset(objects, labels, name)`: cluster.py 58-63. -/
def Ds.initC (objects : List ω) (labels : Option (List Int)) (name : String) : Ds ω F :=
  ⟨objects, name, none, none, some (labels.getD (List.replicate objects.length 0))⟩

/-! ### Selection -/

/-- The keys accepted by `__getitem__` (dataset.py 99-125): an int, a slice, a list whose first element is a boolean, a list
whose first element is an int.  Lists are supposed to be homogeneous; the other keys raise NotImplementedError. -/
inductive Key
  | int (i : Int)
  | slice (start stop step : Option Int)
  | bools (l : List Bool)
  | ints (l : List Int)

/-- What `__getitem__` returns: dataset.py 105-107, `[]`, an object or a dataset. -/
inductive Item (ω F : Type)
  | nil
  | obj (o : ω)
  | ds (d : Ds ω F)

/-- A bound of a slice, clipped between `lower` and `upper`: CPython `slice.indices`, used at dataset.py 164-167. -/
def clip (n lower upper i : Int) : Int := if i < 0 then max (i + n) lower else min i upper

/-- The positions designated by a slice in a list of length `n`: CPython `slice.indices`.  Used for dataset.py 163-170. -/
def sliceIdx (n : Nat) (start stop step : Option Int) : Except PyErr (List Nat) :=
  let s := step.getD 1
  if s = 0 then .error .valueError
  else if 0 < s then
    let a := (start.map (clip n 0 n)).getD 0
    let b := (stop.map (clip n 0 n)).getD n
    .ok ((List.range (if a < b then ((b - a - 1) / s).toNat + 1 else 0)).map fun k : Nat => (a + k * s).toNat)
  else
    let a := (start.map (clip n (-1) (n - 1))).getD (n - 1)
    let b := (stop.map (clip n (-1) (n - 1))).getD (-1)
    .ok ((List.range (if b < a then ((a - b - 1) / (-s)).toNat + 1 else 0)).map fun k : Nat => (a + k * s).toNat)

/-- `l[start:stop:step]`.  Used for dataset.py 163-170. -/
def sliceOf {α : Type} (l : List α) (start stop step : Option Int) : Except PyErr (List α) := do
  let idx ← sliceIdx l.length start stop step
  .ok (idx.filterMap (l[·]?))

/-- `_pick_from_slice`: dataset.py 163-170, cluster.py 80-84. -/
def Ds.pickSlice (d : Ds ω F) (start stop step : Option Int) : Except PyErr (Ds ω F) := do
  let objects ← sliceOf d.objects start stop step
  let matrix ← match d.matrix with
    | some m => (sliceOf m start stop step).map some
    | none => .ok none
  let labels ← match d.labels with
    | some l => (sliceOf l start stop step).map some
    | none => .ok none
  .ok ⟨objects, d.name, d.common, matrix, labels⟩

/-- `boolean_list[idx] = True`: dataset.py 175. -/
def markIndex (n : Nat) (bs : List Bool) (i : Int) : Except PyErr (List Bool) :=
  match Py.idx n i with
  | some k => .ok (bs.set k true)
  | none => .error .indexError

/-- `_indexlist_to_booleanlist`: dataset.py 172-176. -/
def toBoolList (n : Nat) (l : List Int) : Except PyErr (List Bool) := l.foldlM (markIndex n) (List.replicate n false)

/-- `_pick_from_boolist`: dataset.py 178-184, cluster.py 86-90. -/
def Ds.pickBools (d : Ds ω F) (key : List Bool) : Ds ω F :=
  ⟨filterApply d.objects key, d.name, d.common, d.matrix.map (filterApply · key), d.labels.map (filterApply · key)⟩

/-- `self.__class__()`: dataset.py 112. -/
def Ds.emptyLike (d : Ds ω F) : Ds ω F := ⟨[], "", none, none, d.labels.map fun _ => []⟩

/-- `__getitem__`: dataset.py 99-125. -/
def Ds.getitem (d : Ds ω F) (key : Key) : Except PyErr (Item ω F) :=
  if d.objects.length = 0 then .ok .nil
  else match key with
    | .int i => (Py.get d.objects i).map .obj
    | .slice a b s => (d.pickSlice a b s).map .ds
    | .bools [] => .ok (.ds d.emptyLike)
    | .bools l => if l.length = d.objects.length then .ok (.ds (d.pickBools l)) else .error .valueError
    | .ints [] => .ok (.ds d.emptyLike)
    | .ints l => (toBoolList d.objects.length l).map fun bs => .ds (d.pickBools bs)

/-- `filtering`, for the booleans given by the filters: dataset.py 585-586. -/
def Ds.filtering (d : Ds ω F) (booleans : List Bool) : Ds ω F := d.pickBools booleans

/-! ### Common attributes and matrix -/

/-- `one_instance`: the first object of each class, dataset.py 295-300. -/
def oneInstance (O : Objs ω F) (objects : List ω) : List ω :=
  (objects.foldl (fun (acc : List Nat × List ω) o =>
    if O.cls o ∈ acc.1 then acc else (acc.1 ++ [O.cls o], acc.2 ++ [o])) ([], [])).2

/-- The loop keeping the order: dataset.py 306-310. -/
def keepOrder (set : List String) : List String → List String
  | [] => []
  | a :: all => if a ∈ set then a :: keepOrder (set.filter (· ≠ a)) all else keepOrder set all

/-- The value computed by `common_attributes`: dataset.py 290-310. -/
def computeCommon (O : Objs ω F) (objects : List ω) : List String :=
  let instances := oneInstance O objects
  let all := instances.flatMap fun o => O.features (O.cls o)
  keepOrder (all.filter fun a => instances.all fun o => a ∈ O.features (O.cls o)) all

/-- `common_attributes`: dataset.py 287-312.  Returns the dataset with its cache. -/
def Ds.commonAttributes (O : Objs ω F) (d : Ds ω F) : Ds ω F × List String :=
  match d.common with
  | some c => (d, c)
  | none => if d.objects.length = 0 then (d, []) else
    let c := computeCommon O d.objects
    ({ d with common := some c }, c)

/-- `temp_row[vector_features.index(attr)]`: dataset.py 326. -/
def featureValue (O : Objs ω F) (o : ω) (a : String) : Except PyErr F :=
  match (O.features (O.cls o)).findIdx? (· == a) with
  | some i => Py.get (O.vector o) i
  | none => .error .valueError

/-- `matrix`: dataset.py 314-328.  Returns the dataset with its caches. -/
def Ds.getMatrix (O : Objs ω F) (d : Ds ω F) : Except PyErr (Ds ω F × List (List F)) :=
  match d.matrix with
  | some m => .ok (d, m)
  | none =>
    let dc := d.commonAttributes O
    match d.objects.mapM fun o => dc.2.mapM (featureValue O o) with
    | .ok m => .ok ({ dc.1 with matrix := some m }, m)
    | .error e => .error e

/-- `column_values`: dataset.py 352-367. -/
def Ds.columnValues (O : Objs ω F) (d : Ds ω F) (index : Int) : Except PyErr (Ds ω F × List F) := do
  let dm ← d.getMatrix O
  let col ← dm.2.mapM fun row => Py.get row index
  .ok (dm.1, col)

/-- `getattr(dessia_object, attribute)`: dataset.py 350. -/
def getattr (O : Objs ω F) (o : ω) (a : String) : Except PyErr F :=
  match O.attr o a with
  | some v => .ok v
  | none => .error .attributeError

/-- `attribute_values`: dataset.py 330-350. -/
def Ds.attributeValues (O : Objs ω F) (d : Ds ω F) (a : String) : Except PyErr (Ds ω F × List F) :=
  match d.objects with
  | [] => .error .indexError
  | o :: _ =>
    match O.attr o a with
    | none =>
      let dc := d.commonAttributes O
      match dc.2.findIdx? (· == a) with
      | none => .error .valueError
      | some i => dc.1.columnValues O i
    | some _ => (d.objects.mapM fun o => getattr O o a).map fun vs => (d, vs)

/-- `sub_matrix`: dataset.py 369-390.  The caches are dropped. -/
def Ds.subMatrix (O : Objs ω F) (d : Ds ω F) (names : List String) : Except PyErr (List (List F)) := do
  let cols ← names.mapM fun a => (d.attributeValues O a).map (·.2)
  .ok (transpose cols)

/-- The keys accepted by `sort`.  Used for dataset.py 430-433. -/
inductive SortKey
  | index (i : Int)
  | attr (a : String)

/-- The values to sort: dataset.py 430-433. -/
def Ds.sortValues (O : Objs ω F) (d : Ds ω F) : SortKey → Except PyErr (Ds ω F × List F)
  | .index i => d.columnValues O i
  | .attr a => d.attributeValues O a

/-- `sort`: dataset.py 392-438, for the permutation returned by `npy.argsort`. -/
def Ds.sort (O : Objs ω F) (argsort : List F → List Nat) (d : Ds ω F) (key : SortKey) (ascend : Bool) : Except PyErr (Ds ω F) :=
  if d.objects.length ≠ 0 then do
    let dv ← d.sortValues O key
    let idx := argsort dv.2
    let idx := if ascend then idx else idx.reverse
    let objects ← idx.mapM fun i : Nat => Py.get dv.1.objects i
    match dv.1.matrix with
    | some m => do
      let m' ← idx.mapM fun i : Nat => Py.get m i
      .ok { dv.1 with objects := objects, matrix := some m' }
    | none => .ok { dv.1 with objects := objects }
  else .ok d

/-- `__add__`: dataset.py 127-140. -/
def Ds.add (O : Objs ω F) (d e : Ds ω F) : Except PyErr (Ds ω F) :=
  if d.labels.isSome ∨ e.labels.isSome then .error .typeError
  else
    let name := String.ofList (d.name.toList.take 5) ++ "_+_" ++ String.ofList (e.name.toList.take 5)
    let dc := (d.commonAttributes O).2
    let ec := (e.commonAttributes O).2
    if ec.all fun a => a ∈ dc then
      .ok ⟨d.objects ++ e.objects, name, some dc, (match d.matrix, e.matrix with
        | some m, some m' => some (m ++ m')
        | _, _ => none), none⟩
    else .ok ⟨d.objects ++ e.objects, name, none, none, none⟩

end DC.Data
