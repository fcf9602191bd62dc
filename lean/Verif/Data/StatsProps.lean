import Verif.Data.Stats
import Verif.Data.MetricsProps
import Verif.Data.SortProps
import Verif.Data.ClusterProps
/- Properties C148 and C149: statistics of a dataset and of its clusters. -/
namespace DC.Data

variable {ω F : Type} [Field F] [LinearOrder F] [IsStrictOrderedRing F]

set_option linter.unusedSectionVars false

/-! ### Specification -/

/-- `vs` are the values of the feature `a`, object by object. -/
def ValuesOf (O : Objs ω F) (objects : List ω) (a : String) (vs : List F) : Prop :=
  List.Forall₂ (fun o v => ValueOf O o a v) objects vs

/-- `m` is the mean of the values of the feature `a`. -/
def IsMeanOf (O : Objs ω F) (objects : List ω) (a : String) (m : F) : Prop :=
  ∃ vs, ValuesOf O objects a vs ∧ m * objects.length = vs.sum

/-! ### Helpers -/

/-- Columns of a matrix. -/
theorem column_values {O : Objs ω F} {names : List String} : ∀ {objects : List ω} {m : List (List F)}, RowsOf O names objects m →
    ∀ (k : Nat) (a : String), names[k]? = some a → ValuesOf O objects a (column m k)
  | _, _, .nil, _, _, _ => .nil
  | o :: objects, row :: m, .cons h t, k, a, ha => by
    have hv := (forall2_get.1 h)
    have hk : k < names.length := (List.getElem?_eq_some_iff.1 ha).1
    have hk' : k < row.length := by rw [← h.length_eq]; exact hk
    have hcol : column (row :: m) k = row[k] :: column m k := by
      simp [column, List.getElem?_eq_getElem hk']
    rw [hcol]
    refine .cons ?_ (column_values t k a ha)
    exact hv.2 k a row[k] ha (List.getElem?_eq_getElem hk')

theorem transposed {O : Objs ω F} {names : List String} {objects : List ω} {m : List (List F)} (h : RowsOf O names objects m)
    (hne : objects ≠ []) : List.Forall₂ (fun a col => ValuesOf O objects a col) names (transpose m) := by
  have ht : transpose m = (List.range names.length).map (column m) := by
    cases h with
    | nil => exact absurd rfl hne
    | cons h' t => simp [transpose, h'.length_eq]
  rw [ht]
  refine forall2_get.2 ⟨by simp, fun i a col ha hc => ?_⟩
  rw [List.getElem?_map] at hc
  obtain ⟨k, hk, rfl⟩ := Option.map_eq_some_iff.1 hc
  obtain ⟨hi, hki⟩ := List.getElem?_eq_some_iff.1 hk
  rw [List.getElem_range] at hki
  subst hki
  exact column_values h i a ha

theorem forall2_trans {α β γ : Type} {R : α → β → Prop} {S : β → γ → Prop} : ∀ {a : List α} {b : List β} {c : List γ},
    List.Forall₂ R a b → List.Forall₂ S b c → List.Forall₂ (fun x z => ∃ y, R x y ∧ S y z) a c
  | _, _, _, .nil, .nil => .nil
  | _, _, _, .cons h t, .cons h' t' => .cons ⟨_, h, h'⟩ (forall2_trans t t')

theorem forall2_map {α β : Type} (f : α → β) : ∀ l : List α, List.Forall₂ (fun x y => f x = y) l (l.map f)
  | [] => .nil
  | _ :: l => .cons rfl (forall2_map f l)

theorem valueOf_unique {O : Objs ω F} {o : ω} {a : String} {v w : F} (h : ValueOf O o a v) (h' : ValueOf O o a w) : v = w := by
  have h1 := valueOf_iff.2 h
  rw [valueOf_iff.2 h'] at h1
  exact (Except.ok.inj h1).symm

theorem valuesOf_unique {O : Objs ω F} {a : String} : ∀ {objects : List ω} {v w : List F}, ValuesOf O objects a v → ValuesOf O objects a w → v = w
  | _, _, _, .nil, .nil => rfl
  | _, _, _, .cons h t, .cons h' t' => by rw [valueOf_unique h h', valuesOf_unique t t']

/-! ### C148: a dataset -/

/-- The means of a dataset which is not empty are those of the values of its common attributes, in order; each lies between the
smallest and the largest value. -/
theorem C148_mean {O : Objs ω F} {d : Ds ω F} (h : Coherent O d) (hne : d.objects ≠ []) :
    ∃ ms, d.mean O = .ok ms ∧ List.Forall₂ (fun a m => ∃ vs, ValuesOf O d.objects a vs ∧ m * d.objects.length = vs.sum ∧
      (∀ c, (∀ x ∈ vs, c ≤ x) → c ≤ m) ∧ ∀ c, (∀ x ∈ vs, x ≤ c) → m ≤ c) (d.commonAttributes O).2 ms := by
  obtain ⟨e, mat, h1, h2, -⟩ := C47_matrix h
  have ht := transposed h2 hne
  have hcol : ∀ col ∈ transpose mat, col ≠ [] ∧ col.length = d.objects.length := by
    intro col hc
    obtain ⟨i, hi, rfl⟩ := List.mem_iff_getElem.1 hc
    have hi' : i < (d.commonAttributes O).2.length := by rw [ht.length_eq]; exact hi
    have hv := (forall2_get.1 ht).2 i _ _ (List.getElem?_eq_getElem hi') (List.getElem?_eq_getElem hi)
    refine ⟨fun h0 => ?_, hv.length_eq.symm⟩
    rw [h0] at hv
    exact hne (List.length_eq_zero_iff.1 hv.length_eq)
  obtain ⟨ms, hms⟩ := mapM_exists (f := pyMean) (l := transpose mat) fun col hc => by
    obtain ⟨m, hm, -⟩ := (C50_mean col).2 (hcol col hc).1
    exact ⟨m, hm⟩
  refine ⟨ms, by rw [Ds.mean, h1]; exact hms, ?_⟩
  refine (forall2_trans ht (Py.mapM_ok.1 hms)).imp fun a m hx => ?_
  obtain ⟨vs, hv, hm⟩ := hx
  have hvn : vs ≠ [] := fun h0 => by
    rw [h0] at hv
    exact hne (List.length_eq_zero_iff.1 hv.length_eq)
  obtain ⟨m', hm', hs, hlo, hhi⟩ := (C50_mean vs).2 hvn
  rw [hm] at hm'
  obtain rfl := Except.ok.inj hm'
  exact ⟨vs, hv, by rw [hv.length_eq]; exact hs, hlo, hhi⟩

/-- The variances of a dataset which is not empty are those of the values of its common attributes, in order: they are their
covariances with themselves, they are not negative, and vanish only for an attribute having the same value everywhere. -/
theorem C148_variances {O : Objs ω F} {d : Ds ω F} (h : Coherent O d) (hne : d.objects ≠ []) :
    ∃ vars, d.variances O = .ok vars ∧ List.Forall₂ (fun a s => ∃ vs, ValuesOf O d.objects a vs ∧ covariance vs vs = .ok s ∧
      0 ≤ s ∧ (s = 0 ↔ ∃ c, ∀ x ∈ vs, x = c)) (d.commonAttributes O).2 vars := by
  obtain ⟨e, mat, h1, h2, -⟩ := C47_matrix h
  refine ⟨_, by rw [Ds.variances, h1], ?_⟩
  refine (forall2_trans (transposed h2 hne) (forall2_map variance _)).imp fun a s hx => ?_
  obtain ⟨vs, hv, rfl⟩ := hx
  have hvn : vs ≠ [] := fun h0 => by
    rw [h0] at hv
    exact hne (List.length_eq_zero_iff.1 hv.length_eq)
  obtain ⟨g1, g2, g3⟩ := C50_variance hvn
  exact ⟨vs, hv, g1, g2, g3⟩

/-- With at least two objects and two common attributes, the covariance matrix has one entry for each pair of common attributes:
the covariance of their values, times n / (n - 1).
Missing: this factor, by which its diagonal is not `variances()` (`C148_variances_violated`), and a single common attribute
(`C148_single_violated`). -/
theorem C148_covariance_partial {O : Objs ω F} {d : Ds ω F} (h : Coherent O d) (h2 : 2 ≤ d.objects.length)
    (ha : (d.commonAttributes O).2.length ≠ 1) :
    ∃ m, d.covarianceMatrix O = .ok (.matrix m) ∧ m.length = (d.commonAttributes O).2.length ∧
      ∀ (i j : Nat) (a b : String), (d.commonAttributes O).2[i]? = some a → (d.commonAttributes O).2[j]? = some b →
        ∃ row e c va vb, m[i]? = some row ∧ row[j]? = some e ∧ ValuesOf O d.objects a va ∧ ValuesOf O d.objects b vb ∧
          covariance va vb = .ok c ∧ e = c * ((d.objects.length : F) / (d.objects.length - 1)) := by
  have hne : d.objects ≠ [] := fun h0 => by rw [h0] at h2; simp at h2
  obtain ⟨e, mat, h1, hr, -⟩ := C47_matrix h
  have ht := transposed hr hne
  obtain ⟨hl, hg⟩ := forall2_get.1 ht
  have hrows : ∀ r ∈ transpose mat, r.length = d.objects.length := by
    intro r hr
    obtain ⟨i, hi, rfl⟩ := List.mem_iff_getElem.1 hr
    exact (hg i _ _ (List.getElem?_eq_getElem (by rw [hl]; exact hi)) (List.getElem?_eq_getElem hi)).length_eq.symm
  obtain ⟨m, hm, hlen, hm'⟩ := C89_partial h2 hrows (by rw [← hl]; exact ha)
  refine ⟨m, by rw [Ds.covarianceMatrix, h1]; simp only [hm], by rw [hlen, hl], fun i j a b hi hj => ?_⟩
  have hi' : i < (transpose mat).length := by rw [← hl]; exact (List.getElem?_eq_some_iff.1 hi).1
  have hj' : j < (transpose mat).length := by rw [← hl]; exact (List.getElem?_eq_some_iff.1 hj).1
  obtain ⟨row, e, c, g1, g2, g3, g4⟩ := hm' i j _ _ (List.getElem?_eq_getElem hi') (List.getElem?_eq_getElem hj')
  exact ⟨row, e, c, _, _, g1, g2, hg i a _ hi (List.getElem?_eq_getElem hi'), hg j b _ hj (List.getElem?_eq_getElem hj'), g3, g4⟩

/-- The objects of the examples are pairs of numbers, with the features x and y, or single numbers, with the feature x. -/
def statObjs : Objs (List Rat) Rat where
  cls o := o.length
  features n := (["x", "y"] ++ List.replicate (n - 2) "z").take n
  vector o := o
  attr _ _ := none
  aligned o := by simp; omega

/-- **C148** is violated by the code: `variances()` is not the diagonal of `covariance_matrix()`. -/
theorem C148_variances_violated : (Ds.init [[0, 0], [2, 4]] "d" : Ds (List Rat) Rat).variances statObjs = .ok [1, 4] ∧
    (Ds.init [[0, 0], [2, 4]] "d" : Ds (List Rat) Rat).covarianceMatrix statObjs = .ok (.matrix [[2, 4], [4, 8]]) := by
  constructor
  · decide +kernel
  · have : Data.covarianceMatrix ([[0, 2], [0, 4]] : List (List Rat)) = .matrix [[2, 4], [4, 8]] := by
      obtain ⟨m, h, h', -⟩ := C89_violated
      rw [h, h']
    exact congrArg Except.ok this

/-- **C148** is violated by the code: with a single common attribute, the covariance matrix is a number. -/
theorem C148_single_violated {O : Objs ω F} {d : Ds ω F} {a : String} (h : Coherent O d) (hne : d.objects ≠ [])
    (ha : (d.commonAttributes O).2 = [a]) : ∃ c, d.covarianceMatrix O = .ok (.scalar c) := by
  obtain ⟨e, mat, h1, hr, -⟩ := C47_matrix h
  have ht := transposed hr hne
  rw [ha] at ht
  rw [Ds.covarianceMatrix, h1]
  dsimp only
  generalize transpose mat = cols at ht
  cases ht with
  | cons _ t => cases t with | nil => exact ⟨_, rfl⟩

example : Coherent statObjs (Ds.init [[0, 0], [2, 4]] "d") ∧ 2 ≤ (Ds.init [[0, 0], [2, 4]] "d" : Ds (List Rat) Rat).objects.length ∧
    ((Ds.init [[0, 0], [2, 4]] "d" : Ds (List Rat) Rat).commonAttributes statObjs).2 = ["x", "y"] ∧
    (Ds.init [[0, 0], [2, 4]] "d" : Ds (List Rat) Rat).mean statObjs = .ok [1, 2] :=
  ⟨C47_init _ _ rfl rfl, by decide, by decide +kernel, by decide +kernel⟩

example : Coherent statObjs (Ds.init [[0, 0], [2]] "d") ∧
    ((Ds.init [[0, 0], [2]] "d" : Ds (List Rat) Rat).commonAttributes statObjs).2 = ["x"] ∧
    (Ds.init [[0, 0], [2]] "d" : Ds (List Rat) Rat).mean statObjs = .ok [1] :=
  ⟨C47_init _ _ rfl rfl, by decide +kernel, by decide +kernel⟩

/-! ### C149: clusters -/

theorem withLabel_cons {α : Type} (x : α) (xs : List α) (l : Int) (ls : List Int) (c : Int) :
    withLabel (x :: xs) (l :: ls) c = if l = c then x :: withLabel xs ls c else withLabel xs ls c := by
  unfold withLabel
  rw [List.zip_cons_cons, List.filter_cons]
  by_cases h : l = c <;> simp [h]

theorem withLabel_ne_nil {α : Type} : ∀ {xs : List α} {ls : List Int} {c : Int}, ls.length = xs.length → c ∈ ls → withLabel xs ls c ≠ []
  | [], [], _, _, h => by simp at h
  | x :: xs, l :: ls, c, hl, h => by
    rw [withLabel_cons]
    by_cases hc : l = c
    · simp [hc]
    · rw [if_neg hc]
      rcases List.mem_cons.1 h with h | h
      · exact absurd h.symm hc
      · exact withLabel_ne_nil (by simpa using hl) h
  | [], _ :: _, _, h, _ => by simp at h
  | _ :: _, [], _, h, _ => by simp at h

theorem withLabel_subset {α : Type} {xs : List α} {ls : List Int} {c : Int} {x : α} (h : x ∈ withLabel xs ls c) : x ∈ xs := by
  unfold withLabel at h
  obtain ⟨p, hp, rfl⟩ := List.mem_map.1 h
  exact (List.of_mem_zip (List.mem_filter.1 hp).1).1

theorem withLabel_length {α : Type} : ∀ {xs : List α} {ls : List Int} (c : Int), ls.length = xs.length →
    (withLabel xs ls c).length = ls.count c
  | [], [], _, _ => rfl
  | x :: xs, l :: ls, c, hl => by
    have ih := withLabel_length c (by simpa using hl : ls.length = xs.length)
    rw [withLabel_cons, List.count_cons]
    by_cases hc : l = c <;> simp [hc, ih]
  | [], _ :: _, _, h => by simp at h
  | _ :: _, [], _, h => by simp at h

theorem valuesOf_withLabel {O : Objs ω F} {a : String} : ∀ {objects : List ω} {vs : List F} {ls : List Int} (c : Int),
    ValuesOf O objects a vs → ls.length = objects.length → ValuesOf O (withLabel objects ls c) a (withLabel vs ls c)
  | _, _, [], _, .nil, _ => .nil
  | _, _, l :: ls, c, .cons h t, hl => by
    rw [withLabel_cons, withLabel_cons]
    have ih := valuesOf_withLabel c t (by simpa using hl : ls.length = _)
    by_cases hc : l = c
    · rw [if_pos hc, if_pos hc]; exact .cons h ih
    · rw [if_neg hc, if_neg hc]; exact ih
  | _, _, _ :: _, _, .nil, h => by simp at h
  | _, _, [], _, .cons _ _, h => by simp at h

theorem sum_single {l : Int} {v : F} {f : Int → F} : ∀ {order : List Int}, order.Nodup → l ∈ order →
    (order.map fun c => if l = c then v + f c else f c).sum = v + (order.map f).sum
  | [], _, h => by simp at h
  | c :: order, hn, h => by
    rw [List.nodup_cons] at hn
    simp only [List.map_cons, List.sum_cons]
    by_cases hc : l = c
    · subst hc
      have : (order.map fun c => if l = c then v + f c else f c) = order.map f := by
        refine List.map_congr_left fun c hc => if_neg ?_
        rintro rfl
        exact hn.1 hc
      rw [this, if_pos rfl, add_assoc]
    · rw [if_neg hc, sum_single hn.2 ((List.mem_cons.1 h).resolve_left hc)]
      ring

theorem sum_withLabel : ∀ {vs : List F} {ls order : List Int}, ls.length = vs.length → order.Nodup → (∀ l ∈ ls, l ∈ order) →
    (order.map fun c => (withLabel vs ls c).sum).sum = vs.sum
  | [], [], order, _, _, _ => by
    have : (fun c : Int => (withLabel ([] : List F) [] c).sum) = fun _ => 0 := by funext c; rfl
    rw [this]
    simp
  | v :: vs, l :: ls, order, hl, hn, h => by
    have ih := sum_withLabel (vs := vs) (ls := ls) (order := order) (by simpa using hl) hn fun l hl => h l (.tail _ hl)
    have : (fun c : Int => (withLabel (v :: vs) (l :: ls) c).sum) =
        fun c => if l = c then v + (withLabel vs ls c).sum else (withLabel vs ls c).sum := by
      funext c
      rw [withLabel_cons]
      by_cases hc : l = c <;> simp [hc]
    rw [this, sum_single hn (h l (.head _)), ih, List.sum_cons]
  | [], _ :: _, _, h, _, _ => by simp at h
  | _ :: _, [], _, h, _, _ => by simp at h

/-- The sublists of a dataset: one for each label, fresh. -/
theorem sublists_fresh {order clusters labels : List Int} {name : String} {objects : List ω} (ho : IsEnum order labels fun _ => True)
    (hc : IsEnum clusters labels (· ≠ -1)) (hl : labels.length = objects.length) :
    ∃ e : Ds (Ds ω F) F, Ds.clusteredSublists order clusters name objects labels = .ok e ∧
      List.Forall₂ (fun c s => s.common = none ∧ s.matrix = none ∧ s.objects = withLabel objects labels c) order e.objects := by
  obtain ⟨e, h1, h2, -, h3⟩ := sublists_spec (F := F) (name := name) ho hc (by omega : labels.length ≤ objects.length)
  refine ⟨e, h1, forall2_get.2 ⟨h2.symm, fun k c s hk hs => ?_⟩⟩
  have hlt : k < (sortBy (fun a b : String => decide (a ≤ b)) (clusters.map toString) ++ (if -1 ∈ labels then ["outliers"] else [])).length := by
    rw [List.length_append, (sortBy_perm _ _).length_eq, List.length_map]
    have := isEnum_length ho (isEnum_append hc)
    have hk' : k < order.length := (List.getElem?_eq_some_iff.1 hk).1
    unfold clustersThenOutliers at this
    split at this <;> simp_all
  have := h3 k c _ hk (List.getElem?_eq_getElem hlt)
  rw [hs] at this
  obtain rfl := Option.some.inj this
  exact ⟨rfl, rfl, rfl⟩

/-- `ms` are the means, for the objects `objects`, of the attributes which they all have. -/
def MeansOf (O : Objs ω F) (objects : List ω) (ms : List F) : Prop :=
  ∃ names : List String, names.Nodup ∧ (∀ a, a ∈ names ↔ ∀ o ∈ objects, a ∈ O.features (O.cls o)) ∧
    List.Forall₂ (fun a m => IsMeanOf O objects a m) names ms

theorem mean_fresh {O : Objs ω F} {s : Ds ω F} (hc : s.common = none) (hm : s.matrix = none) (hne : s.objects ≠ []) :
    ∃ ms, s.mean O = .ok ms ∧ MeansOf O s.objects ms ∧ List.Forall₂ (fun a m => IsMeanOf O s.objects a m) (s.commonAttributes O).2 ms := by
  obtain ⟨ms, h1, h2⟩ := C148_mean (C47_init O s hc hm) hne
  have h3 := h2.imp (S := fun a m => IsMeanOf O s.objects a m) fun a m ⟨vs, hv, hs, _⟩ => ⟨vs, hv, hs⟩
  exact ⟨ms, h1, ⟨_, (C47_common hc hne).2, (C47_common hc hne).1, h3⟩, h3⟩

theorem clusters_mean {O : Objs ω F} {labels : List Int} {objects : List ω} (hl : labels.length = objects.length) :
    ∀ {order : List Int} {subs : List (Ds ω F)}, (∀ c ∈ order, c ∈ labels) →
      List.Forall₂ (fun c s => s.common = none ∧ s.matrix = none ∧ s.objects = withLabel objects labels c) order subs →
      ∃ means, (subs.mapM fun s => s.mean O) = .ok means ∧
        List.Forall₂ (fun c ms => MeansOf O (withLabel objects labels c) ms) order means := by
  intro order subs ho h
  obtain ⟨hlen, hg⟩ := forall2_get.1 h
  have hsub : ∀ s ∈ subs, ∃ ms, s.mean O = .ok ms := by
    intro s hs
    obtain ⟨i, hi, rfl⟩ := List.mem_iff_getElem.1 hs
    have hi' : i < order.length := by rw [hlen]; exact hi
    obtain ⟨g1, g2, g3⟩ := hg i _ _ (List.getElem?_eq_getElem hi') (List.getElem?_eq_getElem hi)
    obtain ⟨ms, h1, -⟩ := mean_fresh (O := O) g1 g2 (by rw [g3]; exact withLabel_ne_nil hl (ho _ (List.getElem_mem hi')))
    exact ⟨ms, h1⟩
  obtain ⟨means, hm⟩ := mapM_exists (f := fun s : Ds ω F => s.mean O) (l := subs) hsub
  refine ⟨means, hm, ?_⟩
  have hm' := Py.mapM_ok.1 hm
  refine forall2_get.2 ⟨by rw [hlen, hm'.length_eq], fun i c ms hc hms => ?_⟩
  have hi' : i < order.length := (List.getElem?_eq_some_iff.1 hc).1
  have hi : i < subs.length := by rw [← hlen]; exact hi'
  obtain ⟨g1, g2, g3⟩ := hg i c _ hc (List.getElem?_eq_getElem hi)
  obtain ⟨ms', h1, h2, -⟩ := mean_fresh (O := O) g1 g2 (by rw [g3]; exact withLabel_ne_nil hl (ho _ (List.mem_of_getElem? hc)))
  have := (forall2_get.1 hm').2 i _ ms (List.getElem?_eq_getElem hi) hms
  rw [this] at h1
  obtain rfl := Except.ok.inj h1
  rw [← g3]
  exact h2

/-- **C149.** `mean_clusters` gives one list of means for each label, in the order in which Python enumerates them: the means of
the attributes which the objects with this label have, over these objects.
Missing: one list is given for the outliers, which are not a cluster (`C149_outliers_violated`); nothing is given without
objects (`C149_empty_violated`). -/
theorem C149_partial {O : Objs ω F} {order clusters labels : List Int} {name : String} {objects : List ω}
    (ho : IsEnum order labels fun _ => True) (hc : IsEnum clusters labels (· ≠ -1)) (hl : labels.length = objects.length)
    (hne : objects ≠ []) :
    ∃ means, Ds.meanClusters O order clusters name objects labels = .ok means ∧
      List.Forall₂ (fun c ms => MeansOf O (withLabel objects labels c) ms) order means := by
  obtain ⟨e, h1, h2⟩ := sublists_fresh (F := F) (name := name) ho hc hl
  obtain ⟨means, h3, h4⟩ := clusters_mean (O := O) hl (fun c hc => ((ho.2 c).1 hc).1) h2
  refine ⟨means, ?_, h4⟩
  obtain ⟨o, os, rfl⟩ := List.exists_cons_of_ne_nil hne
  rw [Ds.meanClusters]
  simp only [h1]
  rw [Ds.meanClustersNested]
  cases hs : e.objects with
  | nil =>
    rw [hs] at h2
    obtain ⟨l, ls, rfl⟩ := List.exists_cons_of_ne_nil (show labels ≠ [] by rintro rfl; simp at hl)
    have : l ∈ order := (ho.2 l).2 ⟨.head _, trivial⟩
    cases h2
    simp at this
  | cons s ss =>
    rw [hs] at h3
    exact h3

/-- **C149** is violated by the code: with outliers, there is one more list of means than clusters. -/
theorem C149_outliers_violated {O : Objs ω F} {order clusters labels : List Int} {name : String} {objects : List ω}
    (ho : IsEnum order labels fun _ => True) (hc : IsEnum clusters labels (· ≠ -1)) (hl : labels.length = objects.length)
    (hout : -1 ∈ labels) :
    ∃ means, Ds.meanClusters O order clusters name objects labels = .ok means ∧ means.length = nClusters labels + 1 := by
  have hne : objects ≠ [] := by
    rintro rfl
    rw [List.length_eq_zero_iff.1 hl] at hout
    simp at hout
  obtain ⟨means, h1, h2⟩ := C149_partial (O := O) (name := name) ho hc hl hne
  refine ⟨means, h1, ?_⟩
  rw [← h2.length_eq, isEnum_length ho (isEnum_append hc), ← nClusters_eq hc, clustersThenOutliers, if_pos hout]
  simp

/-- **C149** is violated by the code: a dataset without objects, which has no cluster, raises an error. -/
theorem C149_empty_violated (O : Objs ω F) (order clusters labels : List Int) (name : String) :
    Ds.meanClusters O order clusters name ([] : List ω) labels = .error .indexError := rfl

/-- The distances are those of all the objects of each cluster, in order, to the mean of the cluster. -/
theorem C149_distances {O : Objs ω F} {dist : List F → List F → F} {order clusters labels : List Int} {name : String} {objects : List ω}
    (ho : IsEnum order labels fun _ => True) (hc : IsEnum clusters labels (· ≠ -1)) (hl : labels.length = objects.length)
    (hne : objects ≠ []) :
    ∃ means ds, Ds.meanClusters O order clusters name objects labels = .ok means ∧
      Ds.clusterDistances O dist order clusters name objects labels = .ok ds ∧
      List.Forall₂ (fun (cm : Int × List F) l => ∃ names rows, names.Nodup ∧
        (∀ a, a ∈ names ↔ ∀ o ∈ withLabel objects labels cm.1, a ∈ O.features (O.cls o)) ∧
        RowsOf O names (withLabel objects labels cm.1) rows ∧ l = rows.map (dist cm.2)) (order.zip means) ds := by
  obtain ⟨e, h1, h2⟩ := sublists_fresh (F := F) (name := name) ho hc hl
  obtain ⟨means, h3, h4⟩ := C149_partial (O := O) (name := name) ho hc hl hne
  obtain ⟨o, os, rfl⟩ := List.exists_cons_of_ne_nil hne
  have hn : e.meanClustersNested O = .ok means := by
    rw [Ds.meanClusters] at h3
    simp only [h1] at h3
    exact h3
  have hlab : ∀ c ∈ order, c ∈ labels := fun c hc => ((ho.2 c).1 hc).1
  have key : ∀ {order : List Int} {subs : List (Ds ω F)} {means : List (List F)}, (∀ c ∈ order, c ∈ labels) → order.length = means.length →
      List.Forall₂ (fun c s => s.common = none ∧ s.matrix = none ∧ s.objects = withLabel (o :: os) labels c) order subs →
      ∃ ds, ((means.zip subs).mapM fun p => distancesTo O dist p.1 p.2) = .ok ds ∧
        List.Forall₂ (fun (cm : Int × List F) l => ∃ names rows, names.Nodup ∧
          (∀ a, a ∈ names ↔ ∀ o' ∈ withLabel (o :: os) labels cm.1, a ∈ O.features (O.cls o')) ∧
          RowsOf O names (withLabel (o :: os) labels cm.1) rows ∧ l = rows.map (dist cm.2)) (order.zip means) ds := by
    intro order subs means hlab hlen h
    induction h generalizing means with
    | nil => exact ⟨[], by simp [pure, Except.pure], .nil⟩
    | @cons c s order subs h t ih =>
      cases means with
      | nil => simp at hlen
      | cons m means =>
        obtain ⟨ds, g1, g2⟩ := ih (fun c hc => hlab c (.tail _ hc)) (means := means) (by simpa using hlen)
        obtain ⟨k1, k2, k3⟩ := h
        have hne' : s.objects ≠ [] := by rw [k3]; exact withLabel_ne_nil hl (hlab c (.head _))
        obtain ⟨e, mat, j1, j2, -⟩ := C47_matrix (C47_init O s k1 k2)
        have hd : distancesTo O dist m s = .ok (mat.map (dist m)) := by rw [distancesTo, j1]
        refine ⟨mat.map (dist m) :: ds, ?_, .cons ⟨(s.commonAttributes O).2, mat, (C47_common k1 hne').2, ?_, ?_, rfl⟩ g2⟩
        · rw [List.zip_cons_cons, List.mapM_cons, hd, g1]; rfl
        · rw [← k3]; exact (C47_common k1 hne').1
        · rw [← k3]; exact j2
  obtain ⟨ds, g1, g2⟩ := key hlab h4.length_eq h2
  refine ⟨means, ds, h3, ?_, g2⟩
  rw [Ds.clusterDistances]
  simp only [h1, hn]
  exact g1

theorem commonOf_class {O : Objs ω F} {s : Ds ω F} {k : Nat} (hc : s.common = none) (hne : s.objects ≠ [])
    (hk : ∀ o ∈ s.objects, O.cls o = k) : (s.commonAttributes O).2 = keepOrder (O.features k) (O.features k) := by
  have hn : s.objects.length ≠ 0 := fun h => hne (List.length_eq_zero_iff.1 h)
  have he : (s.commonAttributes O).2 = computeCommon O s.objects := by simp [Ds.commonAttributes, hc, hne]
  rw [he]
  obtain ⟨o, os, ho⟩ := List.exists_cons_of_ne_nil hne
  have hone : oneInstance O s.objects = [o] := by
    rw [ho] at hk ⊢
    have hko : O.cls o = k := hk o (.head _)
    have hrest : ∀ (l : List ω), (∀ x ∈ l, O.cls x = k) →
        l.foldl (fun (acc : List Nat × List ω) o => if O.cls o ∈ acc.1 then acc else (acc.1 ++ [O.cls o], acc.2 ++ [o])) ([k], [o]) = ([k], [o]) := by
      intro l
      induction l with
      | nil => intro _; rfl
      | cons x l ih =>
        intro h
        rw [List.foldl_cons, if_pos (by simp [h x (.head _)])]
        exact ih fun y hy => h y (.tail _ hy)
    unfold oneInstance
    rw [List.foldl_cons, if_neg (by simp), hko]
    simp only [List.nil_append]
    rw [hrest os fun x hx => hk x (.tail _ hx)]
  unfold computeCommon
  rw [hone]
  have hk' : O.cls o = k := hk o (by rw [ho]; exact .head _)
  simp only [List.flatMap_cons, List.flatMap_nil, List.append_nil, hk', List.all_cons, List.all_nil, Bool.and_true]
  rw [List.filter_eq_self.2 fun a ha => by simpa using ha]

/-- For objects of a class, the mean of the dataset is the mean of the means of its clusters, each counted as often as it has
objects. -/
theorem C149_weighted {O : Objs ω F} {order clusters labels : List Int} {name : String} {objects : List ω} {k : Nat}
    (ho : IsEnum order labels fun _ => True) (hc : IsEnum clusters labels (· ≠ -1)) (hl : labels.length = objects.length)
    (hne : objects ≠ []) (hk : ∀ o ∈ objects, O.cls o = k) :
    ∃ ms means, (Ds.init objects name).mean O = .ok ms ∧ Ds.meanClusters O order clusters name objects labels = .ok means ∧
      (∀ l ∈ means, l.length = ms.length) ∧ ∀ (j : Nat) (m : F), ms[j]? = some m →
        m * objects.length = ((order.zip means).map fun p => (p.2[j]?.getD 0) * ((labels.count p.1 : Nat) : F)).sum := by
  obtain ⟨ms, hm1, -, hm2⟩ := mean_fresh (O := O) (s := Ds.init objects name) rfl rfl hne
  rw [commonOf_class (s := Ds.init objects name) rfl hne hk] at hm2
  obtain ⟨e, h1, h2⟩ := sublists_fresh (F := F) (name := name) ho hc hl
  have hlab : ∀ c ∈ order, c ∈ labels := fun c hc => ((ho.2 c).1 hc).1
  obtain ⟨means, h3, -⟩ := clusters_mean (O := O) hl hlab h2
  have h4 : List.Forall₂ (fun c l => List.Forall₂ (fun a m => IsMeanOf O (withLabel objects labels c) a m)
      (keepOrder (O.features k) (O.features k)) l) order means := by
    have h2' : List.Forall₂ (fun c s => c ∈ labels ∧ s.common = none ∧ s.matrix = none ∧ s.objects = withLabel objects labels c) order e.objects :=
      forall2_get.2 ⟨h2.length_eq, fun i c s hi hs => ⟨hlab c (List.mem_of_getElem? hi), (forall2_get.1 h2).2 i c s hi hs⟩⟩
    refine (forall2_trans h2' (Py.mapM_ok.1 h3)).imp fun c l hx => ?_
    obtain ⟨s, ⟨g0, g1, g2, g3⟩, g4⟩ := hx
    have hne' : s.objects ≠ [] := by rw [g3]; exact withLabel_ne_nil hl g0
    obtain ⟨ms', j1, -, j3⟩ := mean_fresh (O := O) g1 g2 hne'
    rw [g4] at j1
    obtain rfl := Except.ok.inj j1
    rw [commonOf_class g1 hne' (fun o ho => hk o (withLabel_subset (by rw [← g3]; exact ho))), g3] at j3
    exact j3
  have h5 : Ds.meanClusters O order clusters name objects labels = .ok means := by
    obtain ⟨means', g1, -⟩ := C149_partial (O := O) (name := name) ho hc hl hne
    obtain ⟨o, os, rfl⟩ := List.exists_cons_of_ne_nil hne
    rw [Ds.meanClusters] at g1 ⊢
    simp only [h1] at g1 ⊢
    rw [Ds.meanClustersNested] at g1 ⊢
    cases hs : e.objects with
    | nil => rw [hs] at g1; simp at g1
    | cons s ss => rw [hs] at h3; exact h3
  refine ⟨ms, means, hm1, h5, fun l hlm => ?_, fun j m hj => ?_⟩
  · obtain ⟨i, hi, rfl⟩ := List.mem_iff_getElem.1 hlm
    have hi' : i < order.length := by rw [h4.length_eq]; exact hi
    have := (forall2_get.1 h4).2 i _ _ (List.getElem?_eq_getElem hi') (List.getElem?_eq_getElem hi)
    rw [← this.length_eq, hm2.length_eq]
  · have hj' : j < (keepOrder (O.features k) (O.features k)).length := by rw [hm2.length_eq]; exact (List.getElem?_eq_some_iff.1 hj).1
    obtain ⟨vs, hv, hs⟩ := (forall2_get.1 hm2).2 j _ m (List.getElem?_eq_getElem hj') hj
    have hvl : labels.length = vs.length := by rw [hl]; exact hv.length_eq
    change m * (objects.length : F) = vs.sum at hs
    rw [hs, ← sum_withLabel hvl ho.1 (fun l hl => (ho.2 l).2 ⟨hl, trivial⟩)]
    congr 1
    have key : ∀ {order : List Int} {means : List (List F)}, List.Forall₂ (fun c l => List.Forall₂ (fun a m => IsMeanOf O (withLabel objects labels c) a m)
        (keepOrder (O.features k) (O.features k)) l) order means →
        (order.map fun c => (withLabel vs labels c).sum) = (order.zip means).map fun p => (p.2[j]?.getD 0) * ((labels.count p.1 : Nat) : F) := by
      intro order means h
      induction h with
      | nil => rfl
      | @cons c l order means h t ih =>
        have hjl : j < l.length := by rw [← h.length_eq]; exact hj'
        obtain ⟨ws, hw, hws⟩ := (forall2_get.1 h).2 j _ _ (List.getElem?_eq_getElem hj') (List.getElem?_eq_getElem hjl)
        rw [valuesOf_unique hw (valuesOf_withLabel c hv hl), withLabel_length c hl] at hws
        rw [List.map_cons, List.zip_cons_cons, List.map_cons, ih, List.getElem?_eq_getElem hjl]
        simp only [Option.getD_some, hws]
    exact key h4

example : IsEnum [0, 1] [0, 1, 0] (fun _ => True) ∧ IsEnum [0, 1] [0, 1, 0] (· ≠ -1) ∧
    Ds.meanClusters statObjs [0, 1] [0, 1] "c" [[0, 0], [7, 7], [2, 4]] [0, 1, 0] = .ok [[1, 2], [7, 7]] ∧
    (Ds.init [[0, 0], [7, 7], [2, 4]] "c" : Ds (List Rat) Rat).mean statObjs = .ok [3, 11 / 3] :=
  ⟨⟨by decide, fun c => by simp; omega⟩, ⟨by decide, fun c => by simp; omega⟩, by decide +kernel, by decide +kernel⟩

example : IsEnum [0, -1] [0, -1, 0] (fun _ => True) ∧ IsEnum [0] [0, -1, 0] (· ≠ -1) ∧ nClusters [0, -1, 0] = 1 ∧
    Ds.meanClusters statObjs [0, -1] [0] "c" [[0, 0], [7, 7], [2]] [0, -1, 0] = .ok [[1], [7, 7]] :=
  ⟨⟨by decide, fun c => by simp; omega⟩, ⟨by decide, fun c => by simp; omega⟩, by decide, by decide +kernel⟩

end DC.Data
