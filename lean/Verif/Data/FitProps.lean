import Verif.Data.Fit
import Verif.Data.StatsProps
/- Properties C160 and C161: clustering, distances and singular values of a dataset. -/
namespace DC.Data

variable {ω : Type}

/-! ### Specification -/

/-- `s` is the matrix `m` with each column brought to mean 0 and variance 1, by an increasing change of units, or to 0 if it is constant. -/
def StandardOf (m s : List (List ℝ)) : Prop :=
  List.Forall₂ (fun r t : List ℝ => t.length = r.length) m s ∧
  ∀ j : Nat, (∃ r ∈ m, j < r.length) → mean (column s j) = 0 ∧
    ((variance (column s j) = 1 ∧ ∃ a b, 0 < a ∧ column s j = (column m j).map fun x => a * x + b) ∨
      ((∃ c, ∀ x ∈ column m j, x = c) ∧ ∀ x ∈ column s j, x = 0))

/-- The same data in other units: as many objects and attributes, each attribute an increasing affine function of the other one. -/
def OtherUnits {ω' : Type} (O : Objs ω ℝ) (d : Ds ω ℝ) (O' : Objs ω' ℝ) (d' : Ds ω' ℝ) : Prop :=
  (d.commonAttributes O).2.length = (d'.commonAttributes O').2.length ∧
  ∀ (j : Nat) (a a' : String), (d.commonAttributes O).2[j]? = some a → (d'.commonAttributes O').2[j]? = some a' →
    ∃ (k c : ℝ), 0 < k ∧ ∀ vs, ValuesOf O d.objects a vs → ValuesOf O' d'.objects a' (vs.map fun x => k * x + c)

/-- What scikit-learn guarantees: one label for each row. -/
def OneLabelEach (alg : List (List ℝ) → Except PyErr (List Int)) : Prop := ∀ m labels, alg m = .ok labels → labels.length = m.length

/-- What numpy guarantees of the singular values of a matrix of `n` rows and `p` columns: they are not negative, in decreasing order,
and all null for a null matrix only. -/
def IsSvd (svd : List (List ℝ) → List ℝ) : Prop := ∀ (n p : Nat) (m : List (List ℝ)), m.length = n → (∀ r ∈ m, r.length = p) → 0 < n →
  (svd m).length = min n p ∧ (∀ x ∈ svd m, 0 ≤ x) ∧ (svd m).Pairwise (· ≥ ·) ∧ ((∀ x ∈ svd m, x = 0) ↔ ∀ r ∈ m, ∀ x ∈ r, x = 0)

/-! ### Scaling -/

theorem column_mapIdx (f : Nat → ℝ → ℝ) (m : List (List ℝ)) (k : Nat) :
    column (m.map fun row => row.mapIdx f) k = (column m k).map (f k) := by
  unfold column
  rw [List.filterMap_map, List.map_filterMap]
  congr 1
  funext row
  simp [List.getElem?_mapIdx]

theorem sum_affine (k c : ℝ) (v : List ℝ) : (v.map fun x => k * x + c).sum = k * v.sum + v.length * c := by
  induction v with
  | nil => simp
  | cons x v ih =>
    rw [List.map_cons, List.sum_cons, List.sum_cons, ih, List.length_cons]
    push_cast
    ring

theorem mean_affine {v : List ℝ} (hne : v ≠ []) (k c : ℝ) : mean (v.map fun x => k * x + c) = k * mean v + c := by
  have hl : v.length ≠ 0 := fun h => hne (List.length_eq_zero_iff.1 h)
  have hpos : (v.length : ℝ) ≠ 0 := by exact_mod_cast hl
  unfold mean
  rw [sum_affine, List.length_map, add_div, mul_div_cancel_left₀ _ hpos, mul_div_assoc]

theorem variance_affine {v : List ℝ} (hne : v ≠ []) (k c : ℝ) : variance (v.map fun x => k * x + c) = k * k * variance v := by
  unfold variance
  rw [mean_affine hne, List.map_map]
  have he : ((fun x => (x - (k * mean v + c)) * (x - (k * mean v + c))) ∘ fun x => k * x + c) =
      (fun y => k * k * y + 0) ∘ fun x => (x - mean v) * (x - mean v) := by
    funext x
    simp only [Function.comp]
    ring
  rw [he, ← List.map_map, mean_affine (by simpa using hne)]
  ring

theorem stdDev_sq (v : List ℝ) (hne : v ≠ []) : stdDev v * stdDev v = variance v := Real.mul_self_sqrt (C50_variance hne).2.1

theorem stdDev_affine {v : List ℝ} (hne : v ≠ []) {k : ℝ} (c : ℝ) (hk : 0 < k) : stdDev (v.map fun x => k * x + c) = k * stdDev v := by
  unfold stdDev
  rw [variance_affine hne, Real.sqrt_mul (mul_self_nonneg k), Real.sqrt_mul_self hk.le]

theorem stdDev_zero {v : List ℝ} (hne : v ≠ []) : stdDev v = 0 ↔ ∀ x ∈ v, x = mean v := by
  unfold stdDev
  rw [Real.sqrt_eq_zero (C50_variance hne).2.1, (C50_variance hne).2.2]
  constructor
  · rintro ⟨c, hc⟩ x hx
    have hl : v.length ≠ 0 := fun h => hne (List.length_eq_zero_iff.1 h)
    have hpos : (v.length : ℝ) ≠ 0 := by exact_mod_cast hl
    unfold mean
    rw [sum_const v c hc, mul_div_cancel_left₀ _ hpos]
    exact hc x hx
  · intro h; exact ⟨_, h⟩

theorem mean_null {v : List ℝ} (h : ∀ x ∈ v, x = 0) : mean v = 0 := by
  unfold mean
  rw [sum_const v 0 h]
  simp

/-- One value brought to mean 0 and variance 1 does not depend on units. -/
theorem scale_affine {v : List ℝ} {x : ℝ} (hx : x ∈ v) {k : ℝ} (c : ℝ) (hk : 0 < k) :
    (k * x + c - mean (v.map fun x => k * x + c)) / scaleBy (v.map fun x => k * x + c) = (x - mean v) / scaleBy v := by
  have hne : v ≠ [] := List.ne_nil_of_mem hx
  rw [mean_affine hne]
  unfold scaleBy
  rw [stdDev_affine hne c hk]
  by_cases h : stdDev v = 0
  · have := (stdDev_zero hne).1 h x hx
    rw [h, this]
    simp
  · rw [if_neg h, if_neg (mul_ne_zero hk.ne' h)]
    field_simp
    ring

theorem isArray_iff {m : List (List ℝ)} : isArray m = true ↔ ∃ p, 0 < p ∧ m ≠ [] ∧ ∀ r ∈ m, r.length = p := by
  cases m with
  | nil => simp [isArray]
  | cons r m =>
    simp only [isArray, Bool.and_eq_true, decide_eq_true_eq, List.all_eq_true]
    constructor
    · rintro ⟨h, h'⟩
      exact ⟨r.length, by omega, by simp, h'⟩
    · rintro ⟨p, hp, -, h⟩
      have := h r (.head _)
      exact ⟨by omega, fun r' hr' => by rw [h r' hr', this]⟩

theorem mem_column {m : List (List ℝ)} {j : Nat} {x : ℝ} : x ∈ column m j ↔ ∃ r ∈ m, r[j]? = some x := by
  simp [column]

theorem standardOf_scale {m : List (List ℝ)} : StandardOf m (m.map (scaleRow m)) := by
  refine ⟨?_, fun j ⟨r, hr, hj⟩ => ?_⟩
  · exact (forall2_map (scaleRow m) m).imp fun r t h => by rw [← h, scaleRow, List.length_mapIdx]
  · have hc : column (m.map (scaleRow m)) j = (column m j).map fun x => (x - mean (column m j)) / scaleBy (column m j) :=
      column_mapIdx (fun j x => (x - mean (column m j)) / scaleBy (column m j)) m j
    have hne : column m j ≠ [] := List.ne_nil_of_mem (mem_column.2 ⟨r, hr, List.getElem?_eq_getElem hj⟩)
    rw [hc]
    by_cases h : stdDev (column m j) = 0
    · have h0 := (stdDev_zero hne).1 h
      have hz : ∀ y ∈ (column m j).map (fun x => (x - mean (column m j)) / scaleBy (column m j)), y = 0 := by
        intro y hy
        obtain ⟨x, hx, rfl⟩ := List.mem_map.1 hy
        rw [← h0 x hx]
        simp
      exact ⟨mean_null hz, .inr ⟨⟨_, h0⟩, hz⟩⟩
    · have hpos : 0 < stdDev (column m j) := lt_of_le_of_ne (Real.sqrt_nonneg _) (Ne.symm h)
      have he : ((column m j).map fun x => (x - mean (column m j)) / scaleBy (column m j)) =
          (column m j).map fun x => (stdDev (column m j))⁻¹ * x + -((stdDev (column m j))⁻¹ * mean (column m j)) := by
        refine List.map_congr_left fun x _ => ?_
        rw [scaleBy, if_neg h]
        field_simp
        ring
      rw [he]
      refine ⟨?_, .inl ⟨?_, _, _, inv_pos.2 hpos, rfl⟩⟩
      · rw [mean_affine hne]; ring
      · rw [variance_affine hne, ← stdDev_sq _ hne]
        field_simp

/-- Rows in other units are scaled to the same rows. -/
theorem scale_units {m m' : List (List ℝ)} (hl : m.length = m'.length) {p : Nat} (hp : ∀ r ∈ m, r.length = p) (hp' : ∀ r ∈ m', r.length = p)
    (h : ∀ j < p, ∃ k c : ℝ, 0 < k ∧ column m' j = (column m j).map fun x => k * x + c) : m'.map (scaleRow m') = m.map (scaleRow m) := by
  have hcol : ∀ {m : List (List ℝ)}, (∀ r ∈ m, r.length = p) → ∀ (j : Nat), j < p → ∀ (i : Nat), (column m j)[i]? = (m[i]?).bind (·[j]?) := by
    intro m hm j hj i
    induction m generalizing i with
    | nil => simp [column]
    | cons r m ih =>
      have hr := hm r (.head _)
      have : column (r :: m) j = r[j]'(by omega) :: column m j := by
        simp [column, List.getElem?_eq_getElem (show j < r.length by omega)]
      rw [this]
      cases i with
      | zero => simp [List.getElem?_eq_getElem (show j < r.length by omega)]
      | succ i => simpa using ih (fun r hr => hm r (.tail _ hr)) i
  refine List.ext_getElem? fun i => ?_
  rw [List.getElem?_map, List.getElem?_map]
  by_cases hi : i < m.length
  · have hi' : i < m'.length := by omega
    rw [List.getElem?_eq_getElem hi, List.getElem?_eq_getElem hi', Option.map_some, Option.map_some]
    congr 1
    have hr := hp _ (List.getElem_mem hi)
    have hr' := hp' _ (List.getElem_mem hi')
    refine List.ext_getElem (by simp [scaleRow, hr, hr']) fun j hj hj' => ?_
    simp only [scaleRow, List.getElem_mapIdx]
    have hjp : j < p := by simp [scaleRow, hr'] at hj; exact hj
    obtain ⟨k, c, hk, hc⟩ := h j hjp
    have h1 := hcol hp j hjp i
    have h2 := hcol hp' j hjp i
    rw [List.getElem?_eq_getElem hi, Option.bind_some, List.getElem?_eq_getElem (show j < m[i].length by omega)] at h1
    rw [List.getElem?_eq_getElem hi', Option.bind_some, List.getElem?_eq_getElem (show j < m'[i].length by omega), hc,
      List.getElem?_map, h1] at h2
    have h3 : k * m[i][j] + c = m'[i][j] := by simpa using h2
    rw [← h3, hc]
    exact scale_affine (List.mem_of_getElem? h1) c hk
  · rw [List.getElem?_eq_none (by omega), List.getElem?_eq_none (by omega)]
    rfl

/-! ### C160: clustering -/

theorem rows_length {O : Objs ω ℝ} {names : List String} {objects : List ω} {m : List (List ℝ)} (h : RowsOf O names objects m) :
    ∀ r ∈ m, r.length = names.length := by
  intro r hr
  induction h with
  | nil => simp at hr
  | cons h t ih =>
    rcases List.mem_cons.1 hr with rfl | hr
    · exact h.length_eq.symm
    · exact ih hr

/-- Without scaling, the labels are those of the algorithm on the rows of values of the dataset; its objects are all kept, in order. -/
theorem C160_labels {O : Objs ω ℝ} {d : Ds ω ℝ} (h : Coherent O d) (alg : List (List ℝ) → Except PyErr (List Int)) (name : String) :
    ∃ m, RowsOf O (d.commonAttributes O).2 d.objects m ∧
      fromClustering O alg false name d = (alg m).map fun labels => Ds.initC d.objects (some labels) name := by
  obtain ⟨e, m, h1, h2, -⟩ := C47_matrix h
  refine ⟨m, h2, ?_⟩
  simp only [fromClustering, h1, fitCluster]
  cases alg m <;> rfl

/-- With scaling, the labels are those of the algorithm on the rows brought to mean 0 and variance 1. -/
theorem C160_scaled {O : Objs ω ℝ} {d : Ds ω ℝ} (h : Coherent O d) (hne : d.objects ≠ []) (ha : (d.commonAttributes O).2 ≠ [])
    (alg : List (List ℝ) → Except PyErr (List Int)) (name : String) :
    ∃ m s, RowsOf O (d.commonAttributes O).2 d.objects m ∧ StandardOf m s ∧
      fromClustering O alg true name d = (alg s).map fun labels => Ds.initC d.objects (some labels) name := by
  obtain ⟨e, m, h1, h2, -⟩ := C47_matrix h
  have hm : m ≠ [] := by
    rintro rfl
    have := h2.length_eq
    simp at this
    exact hne this
  have hp : isArray m = true := isArray_iff.2 ⟨_, List.length_pos_iff.2 ha, hm, rows_length h2⟩
  refine ⟨m, m.map (scaleRow m), h2, standardOf_scale, ?_⟩
  simp only [fromClustering, h1, fitCluster, scaleData, hp, if_true]
  cases alg (m.map (scaleRow m)) <;> rfl

/-- With scaling, a dataset without objects, or whose objects have no common attribute, raises a ValueError. -/
theorem C160_empty {O : Objs ω ℝ} {d : Ds ω ℝ} (h : Coherent O d) (hne : d.objects = [] ∨ (d.commonAttributes O).2 = [])
    (alg : List (List ℝ) → Except PyErr (List Int)) (name : String) : fromClustering O alg true name d = .error .valueError := by
  obtain ⟨e, m, h1, h2, -⟩ := C47_matrix h
  have hp : isArray m = false := by
    rw [Bool.eq_false_iff]
    intro hc
    obtain ⟨p, hp, hm, hr⟩ := isArray_iff.1 hc
    rcases hne with h0 | h0
    · rw [h0] at h2
      cases h2
      exact hm rfl
    · obtain ⟨r, hr'⟩ := List.exists_mem_of_ne_nil _ hm
      have h3 := hr r hr'
      rw [rows_length h2 r hr', h0] at h3
      simp at h3
      omega
  simp only [fromClustering, h1, fitCluster, scaleData, hp, if_true]
  rfl

/-- Whatever the scaling, each object has one label. -/
theorem C160_each {O : Objs ω ℝ} {d c : Ds ω ℝ} (h : Coherent O d) {alg : List (List ℝ) → Except PyErr (List Int)} (hal : OneLabelEach alg)
    {scaling : Bool} {name : String} (hc : fromClustering O alg scaling name d = .ok c) :
    c.objects = d.objects ∧ c.name = name ∧ ∃ labels, c.labels = some labels ∧ labels.length = d.objects.length := by
  have key : ∀ {m : List (List ℝ)}, m.length = d.objects.length →
      fromClustering O alg scaling name d = ((alg m).map fun labels => Ds.initC d.objects (some labels) name) →
      c.objects = d.objects ∧ c.name = name ∧ ∃ labels, c.labels = some labels ∧ labels.length = d.objects.length := by
    intro m hm he
    rw [hc] at he
    cases hl : alg m with
    | error e => rw [hl] at he; simp [Except.map] at he
    | ok labels =>
      rw [hl] at he
      simp only [Except.map, Except.ok.injEq] at he
      subst he
      exact ⟨rfl, rfl, labels, rfl, by rw [hal m labels hl, hm]⟩
  cases scaling with
  | false =>
    obtain ⟨m, hm, he⟩ := C160_labels h alg name
    exact key hm.length_eq.symm he
  | true =>
    by_cases hne : d.objects = [] ∨ (d.commonAttributes O).2 = []
    · rw [C160_empty h hne] at hc
      simp at hc
    · push Not at hne
      obtain ⟨m, s, hm, hs, he⟩ := C160_scaled h hne.1 hne.2 alg name
      exact key (by rw [← hs.1.length_eq, hm.length_eq]) he

/-- With scaling, the labels do not depend on the units of the attributes. -/
theorem C160_units {ω' : Type} {O : Objs ω ℝ} {d : Ds ω ℝ} {O' : Objs ω' ℝ} {d' : Ds ω' ℝ} (h : Coherent O d) (h' : Coherent O' d')
    (hl : d.objects.length = d'.objects.length) (hu : OtherUnits O d O' d') (alg : List (List ℝ) → Except PyErr (List Int)) (name : String) :
    (fromClustering O alg true name d).map (·.labels) = (fromClustering O' alg true name d').map (·.labels) := by
  obtain ⟨e, m, h1, h2, -⟩ := C47_matrix h
  obtain ⟨e', m', h1', h2', -⟩ := C47_matrix h'
  have hlm : m.length = m'.length := by rw [← h2.length_eq, ← h2'.length_eq, hl]
  have hp := rows_length h2
  have hp' := rows_length h2'
  rw [← hu.1] at hp'
  have hs : scaleData m' = scaleData m := by
    unfold scaleData
    have ha : isArray m' = isArray m := by
      rw [Bool.eq_iff_iff, isArray_iff, isArray_iff]
      constructor
      · rintro ⟨q, hq, hm, hr⟩
        obtain ⟨r, hr'⟩ := List.exists_mem_of_ne_nil _ hm
        exact ⟨_, hq, fun h0 => hm (List.length_eq_zero_iff.1 (by rw [← hlm, h0]; rfl)), fun r2 h2 => by rw [hp r2 h2, ← hp' r hr', hr r hr']⟩
      · rintro ⟨q, hq, hm, hr⟩
        obtain ⟨r, hr'⟩ := List.exists_mem_of_ne_nil _ hm
        exact ⟨_, hq, fun h0 => hm (List.length_eq_zero_iff.1 (by rw [hlm, h0]; rfl)), fun r2 h2 => by rw [hp' r2 h2, ← hp r hr', hr r hr']⟩
    rw [ha, scale_units hlm hp hp' fun j hj => ?_]
    obtain ⟨k, c, hk, hv⟩ := hu.2 j _ _ (List.getElem?_eq_getElem hj) (List.getElem?_eq_getElem (hu.1 ▸ hj))
    exact ⟨k, c, hk, valuesOf_unique (column_values h2' j _ (List.getElem?_eq_getElem (hu.1 ▸ hj)))
      (hv _ (column_values h2 j _ (List.getElem?_eq_getElem hj)))⟩
  simp only [fromClustering, h1, h1', fitCluster, if_true, hs]
  cases scaleData m with
  | error e => rfl
  | ok s => cases h0 : alg s <;> simp only [h0] <;> rfl

/-- A list of objects is clustered as the dataset made of it. -/
theorem C160_list (O : Objs ω ℝ) (alg : List (List ℝ) → Except PyErr (List Int)) (scaling : Bool) (name dname : String) (data : List ω) :
    listClustering O alg scaling name data = fromClustering O alg scaling name (Ds.init data dname) := by
  have h : ((Ds.init data dname : Ds ω ℝ).getMatrix O).map (·.2) = ((Ds.init data "" : Ds ω ℝ).getMatrix O).map (·.2) := by
    simp only [Ds.getMatrix, Ds.init, Ds.commonAttributes]
    by_cases hd : data.length = 0
    · simp only [hd, if_true]
      cases data.mapM fun o => ([] : List String).mapM (featureValue O o) <;> rfl
    · simp only [hd, if_false]
      cases data.mapM fun o => (computeCommon O data).mapM (featureValue O o) <;> rfl
  unfold listClustering fromClustering
  cases h1 : (Ds.init data dname : Ds ω ℝ).getMatrix O with
  | error e =>
    cases h2 : (Ds.init data "" : Ds ω ℝ).getMatrix O with
    | error e' => rw [h1, h2] at h; simpa [Except.map] using h.symm
    | ok r => rw [h1, h2] at h; simp [Except.map] at h
  | ok r =>
    cases h2 : (Ds.init data "" : Ds ω ℝ).getMatrix O with
    | error e' => rw [h1, h2] at h; simp [Except.map] at h
    | ok r' =>
      rw [h1, h2] at h
      simp only [Except.map, Except.ok.injEq] at h
      simp only [h]
      rfl

/-- Objects made of two numbers, `x` and `y`. -/
def pairObjs : Objs (ℝ × ℝ) ℝ where
  cls _ := 0
  features _ := ["x", "y"]
  vector o := [o.1, o.2]
  attr _ _ := none
  aligned _ := rfl

theorem pair_values {l : List (ℝ × ℝ)} : ValuesOf pairObjs l "x" (l.map (·.1)) ∧ ValuesOf pairObjs l "y" (l.map (·.2)) := by
  constructor
  · induction l with
    | nil => exact .nil
    | cons o l ih => exact .cons ⟨0, rfl, rfl, fun j hj => absurd hj (Nat.not_lt_zero _)⟩ ih
  · induction l with
    | nil => exact .nil
    | cons o l ih =>
      refine .cons ⟨1, rfl, rfl, fun j hj => ?_⟩ ih
      have : j = 0 := by omega
      subst this
      exact fun h => absurd h (by decide : (["x", "y"] : List String)[0]? ≠ some "y")

theorem pair_attributes (l : List (ℝ × ℝ)) (hl : l ≠ []) (name : String) :
    ((Ds.init l name : Ds (ℝ × ℝ) ℝ).commonAttributes pairObjs).2 = ["x", "y"] := by
  have h1 : ∀ (l : List (ℝ × ℝ)) (acc : List (ℝ × ℝ)), (l.foldl (fun (acc : List Nat × List (ℝ × ℝ)) o =>
      if pairObjs.cls o ∈ acc.1 then acc else (acc.1 ++ [pairObjs.cls o], acc.2 ++ [o])) ([0], acc)).2 = acc := by
    intro l acc
    induction l with
    | nil => rfl
    | cons o l ih => rw [List.foldl_cons, if_pos (show pairObjs.cls o ∈ [0] by simp [pairObjs])]; exact ih
  cases l with
  | nil => exact absurd rfl hl
  | cons o l =>
    have h2 : oneInstance pairObjs (o :: l) = [o] := by
      unfold oneInstance
      rw [List.foldl_cons, if_neg (by simp)]
      exact h1 l [o]
    show computeCommon pairObjs (o :: l) = _
    unfold computeCommon
    rw [h2]
    rfl

/-- Not vacuous: lengths in meters and weights in kilograms, then in millimeters and in grams from another origin. -/
example : Coherent pairObjs (Ds.init [(0, 1), (2, 1), (2, 5)] "d") ∧ Coherent pairObjs (Ds.init [(0, 7), (2000, 7), (2000, 47)] "d'") ∧
    (Ds.init [(0, 1), (2, 1), (2, 5)] "d" : Ds (ℝ × ℝ) ℝ).objects ≠ [] ∧
    ((Ds.init [(0, 1), (2, 1), (2, 5)] "d" : Ds (ℝ × ℝ) ℝ).commonAttributes pairObjs).2 ≠ [] ∧
    OtherUnits pairObjs (Ds.init [(0, 1), (2, 1), (2, 5)] "d") pairObjs (Ds.init [(0, 7), (2000, 7), (2000, 47)] "d'") ∧
    OneLabelEach (fun m => .ok (m.map fun _ => 0)) := by
  refine ⟨C47_init _ _ rfl rfl, C47_init _ _ rfl rfl, by simp [Ds.init], by rw [pair_attributes _ (by simp)]; simp, ?_, ?_⟩
  · unfold OtherUnits
    rw [pair_attributes _ (by simp), pair_attributes _ (by simp)]
    refine ⟨rfl, fun j a a' h h' => ?_⟩
    rw [h] at h'
    cases h'
    match j, h with
    | 0, h =>
      cases h
      refine ⟨1000, 0, by norm_num, fun vs hvs => ?_⟩
      rw [valuesOf_unique hvs pair_values.1]
      have := (pair_values (l := [(0, 7), (2000, 7), (2000, 47)])).1
      norm_num at this
      norm_num [Ds.init]
      exact this
    | 1, h =>
      cases h
      refine ⟨10, -3, by norm_num, fun vs hvs => ?_⟩
      rw [valuesOf_unique hvs pair_values.2]
      have := (pair_values (l := [(0, 7), (2000, 7), (2000, 47)])).2
      norm_num at this
      norm_num [Ds.init]
      exact this
    | _ + 2, h => simp at h
  · intro m labels h
    cases h
    simp

/-! ### C161: distances -/

/-- The distance matrix has one row and one column for each object, in order; it holds the distance between the values of each two
objects, for a method of scipy which is symmetric and null between equal vectors. -/
theorem C161_distances {O : Objs ω ℝ} {d : Ds ω ℝ} (h : Coherent O d) (hne : d.objects ≠ [])
    (dist : String → Option ℝ → List ℝ → List ℝ → ℝ) (method : String) (p : Option ℝ)
    (hself : ∀ x, dist method (setPower method p) x x = 0)
    (hsymm : ∀ x y, dist method (setPower method p) x y = dist method (setPower method p) y x) :
    ∃ D, d.distanceMatrix O dist method p = .ok D ∧ D.length = d.objects.length ∧
      ∀ (i : Nat) (a : ω) (x : List ℝ), d.objects[i]? = some a → List.Forall₂ (fun n v => ValueOf O a n v) (d.commonAttributes O).2 x →
        ∃ row, D[i]? = some row ∧ row.length = d.objects.length ∧
          ∀ (j : Nat) (b : ω) (y : List ℝ), d.objects[j]? = some b → List.Forall₂ (fun n v => ValueOf O b n v) (d.commonAttributes O).2 y →
            row[j]? = some (dist method (setPower method p) x y) := by
  obtain ⟨e, m, h1, h2, -⟩ := C47_matrix h
  have hl := h2.length_eq
  have hm : m ≠ [] := by
    rintro rfl
    simp at hl
    exact hne hl
  have hrow : ∀ (i : Nat) (a : ω) (x : List ℝ), d.objects[i]? = some a → List.Forall₂ (fun n v => ValueOf O a n v) (d.commonAttributes O).2 x →
      m[i]? = some x := by
    intro i a x ha hx
    obtain ⟨hi, -⟩ := List.getElem?_eq_some_iff.1 ha
    have hi' : i < m.length := by omega
    have := (forall2_get.1 h2).2 i a _ ha (List.getElem?_eq_getElem hi')
    rw [List.getElem?_eq_getElem hi']
    congr 1
    refine List.ext_getElem? fun k => ?_
    by_cases hk : k < (d.commonAttributes O).2.length
    · have hk1 : k < m[i].length := by rw [← this.length_eq]; exact hk
      have hk2 : k < x.length := by rw [← hx.length_eq]; exact hk
      rw [List.getElem?_eq_getElem hk1, List.getElem?_eq_getElem hk2]
      exact congrArg some (valueOf_unique ((forall2_get.1 this).2 k _ _ (List.getElem?_eq_getElem hk) (List.getElem?_eq_getElem hk1))
        ((forall2_get.1 hx).2 k _ _ (List.getElem?_eq_getElem hk) (List.getElem?_eq_getElem hk2)))
    · rw [List.getElem?_eq_none (by rw [← this.length_eq]; omega), List.getElem?_eq_none (by rw [← hx.length_eq]; omega)]
  refine ⟨_, by rw [Ds.distanceMatrix, h1]; exact if_neg hm, by simp [hl], fun i a x ha hx => ?_⟩
  have hmi := hrow i a x ha hx
  have hi : i < m.length := (List.getElem?_eq_some_iff.1 hmi).1
  refine ⟨_, by rw [List.getElem?_map, List.getElem?_range hi, Option.map_some], by simp [hl], fun j b y hb hy => ?_⟩
  have hmj := hrow j b y hb hy
  have hj : j < m.length := (List.getElem?_eq_some_iff.1 hmj).1
  rw [List.getElem?_map, List.getElem?_range hj, Option.map_some]
  congr 1
  unfold squareEntry
  by_cases hij : i = j
  · subst hij
    rw [hmi] at hmj
    rw [if_pos rfl, ← Option.some.inj hmj, hself]
  · rw [if_neg hij]
    rcases Nat.lt_or_ge i j with hlt | hge
    · rw [Nat.min_eq_left (by omega), Nat.max_eq_right (by omega), hmi, hmj]
    · rw [Nat.min_eq_right (by omega), Nat.max_eq_left (by omega), hmi, hmj]
      exact hsymm y x

/-- Without arguments, the distance of Minkowski of power 2, which is the Euclidean one, is taken; a power is taken as it is given. -/
theorem C161_default (dist : String → Option ℝ → List ℝ → List ℝ → ℝ)
    (hd : ∀ (p : ℝ) (x y : List ℝ), x.length = y.length → minkowski p x y = .ok (dist "minkowski" (some p) x y)) :
    (∀ x y : List ℝ, x.length = y.length → dist "minkowski" (setPower "minkowski" none) x y = euclidian x y) ∧
    (∀ (method : String) (p : ℝ), setPower method (some p) = some p) ∧
    ∀ method : String, method ≠ "minkowski" → setPower method none = none := by
  refine ⟨fun x y h => ?_, fun _ _ => rfl, fun method h => by simp [setPower, h]⟩
  have h1 := hd 2 x y h
  rw [(C97_orders x y h).2] at h1
  exact (Except.ok.inj h1).symm

/-- The distances of a dataset without objects are a ValueError. -/
theorem C161_empty {O : Objs ω ℝ} {d : Ds ω ℝ} (h : Coherent O d) (hne : d.objects = [])
    (dist : String → Option ℝ → List ℝ → List ℝ → ℝ) (method : String) (p : Option ℝ) (svd : List (List ℝ) → List ℝ) :
    d.distanceMatrix O dist method p = .error .valueError ∧ d.singularValues O svd = .error .valueError := by
  obtain ⟨e, m, h1, h2, -⟩ := C47_matrix h
  rw [hne] at h2
  cases h2
  exact ⟨by simp [Ds.distanceMatrix, h1], by simp [Ds.singularValues, h1, centerRows, scaleData, isArray]⟩

/-! ### C161: singular values -/

/-- Centering before scaling changes nothing. -/
theorem scale_center {m : List (List ℝ)} {p : Nat} (hp : ∀ r ∈ m, r.length = p) :
    (centerRows m).map (scaleRow (centerRows m)) = m.map (scaleRow m) := by
  refine scale_units (by simp [centerRows]) hp (fun r hr => ?_) fun j _ => ⟨1, -mean (column m j), one_pos, ?_⟩
  · obtain ⟨r', hr', rfl⟩ := List.mem_map.1 hr
    rw [List.length_mapIdx, hp r' hr']
  · rw [centerRows, column_mapIdx (fun j x => x - mean (column m j))]
    refine List.map_congr_left fun x _ => ?_
    ring

theorem sum_zero_iff {v : List ℝ} (h : ∀ x ∈ v, 0 ≤ x) : v.sum = 0 ↔ ∀ x ∈ v, x = 0 := by
  induction v with
  | nil => simp
  | cons x v ih =>
    have hv := List.sum_nonneg (l := v) fun y hy => h y (.tail _ hy)
    have hx := h x (.head _)
    rw [List.sum_cons]
    constructor
    · intro hs y hy
      rcases List.mem_cons.1 hy with rfl | hy
      · linarith
      · exact (ih fun y hy => h y (.tail _ hy)).1 (by linarith) y hy
    · intro hz
      rw [hz x (.head _), (ih fun y hy => h y (.tail _ hy)).2 fun y hy => hz y (.tail _ hy)]
      ring

theorem singular_shape {O : Objs ω ℝ} {d : Ds ω ℝ} (h : Coherent O d) (hne : d.objects ≠ []) (ha : (d.commonAttributes O).2 ≠ [])
    {svd : List (List ℝ) → List ℝ} (hs : IsSvd svd) :
    ∃ sv, d.singularValues O svd = .ok (shares sv, (shares sv).mapIdx singularPoint) ∧
      sv.length = min (d.commonAttributes O).2.length d.objects.length ∧ (∀ x ∈ sv, 0 ≤ x) ∧ sv.Pairwise (· ≥ ·) ∧
      (sv.sum = 0 ↔ ∀ a ∈ (d.commonAttributes O).2, ∀ vs, ValuesOf O d.objects a vs → ∃ c, ∀ x ∈ vs, x = c) := by
  obtain ⟨e, m, h1, h2, -⟩ := C47_matrix h
  have hl := h2.length_eq
  have hm : m ≠ [] := by
    rintro rfl
    simp at hl
    exact hne hl
  have hp := rows_length h2
  have hpos : 0 < (d.commonAttributes O).2.length := List.length_pos_iff.2 ha
  have hcm : ∀ r ∈ centerRows m, r.length = (d.commonAttributes O).2.length := by
    intro r hr
    obtain ⟨r', hr', rfl⟩ := List.mem_map.1 hr
    rw [List.length_mapIdx, hp r' hr']
  have harr : isArray (centerRows m) = true := isArray_iff.2 ⟨_, hpos, by simpa [centerRows] using hm, hcm⟩
  have hsr : ∀ r ∈ m.map (scaleRow m), r.length = (d.commonAttributes O).2.length := by
    intro r hr
    obtain ⟨r', hr', rfl⟩ := List.mem_map.1 hr
    rw [scaleRow, List.length_mapIdx, hp r' hr']
  have hst := standardOf_scale (m := m)
  revert hst hsr
  have hsl : (m.map (scaleRow m)).length = m.length := List.length_map _
  revert hsl
  have hres : d.singularValues O svd =
      .ok (shares (svd (transpose (m.map (scaleRow m)))), (shares (svd (transpose (m.map (scaleRow m))))).mapIdx singularPoint) := by
    simp only [Ds.singularValues, h1, scaleData, harr, if_true, scale_center hp]
  revert hres
  generalize m.map (scaleRow m) = s
  intro hres hsl hsr hst
  have htr : transpose s = (List.range (d.commonAttributes O).2.length).map (column s) := by
    cases s with
    | nil => exact absurd (List.length_eq_zero_iff.1 hsl.symm) hm
    | cons r s => rw [transpose, hsr r (.head _)]
  have hcl : ∀ r ∈ transpose s, r.length = d.objects.length := by
    intro r hr
    rw [htr] at hr
    obtain ⟨j, hj, rfl⟩ := List.mem_map.1 hr
    rw [List.mem_range] at hj
    rw [hl, ← hsl]
    clear hres hsl hst htr hr
    induction s with
    | nil => rfl
    | cons r s ih =>
      have := hsr r (.head _)
      rw [List.length_cons, ← ih fun r hr => hsr r (.tail _ hr)]
      simp [column, List.getElem?_eq_getElem (show j < r.length by omega)]
  obtain ⟨k1, k2, k3, k4⟩ := hs _ _ (transpose s) rfl hcl (by rw [htr]; simpa using hpos)
  refine ⟨_, hres, by rw [k1, htr]; simp, k2, k3, ?_⟩
  rw [sum_zero_iff k2, k4]
  obtain ⟨r0, hr0⟩ := List.exists_mem_of_ne_nil _ hm
  constructor
  · intro hz a hain vs hvs
    obtain ⟨j, hj, hja⟩ := List.mem_iff_getElem.1 hain
    have hja' : (d.commonAttributes O).2[j]? = some a := by rw [List.getElem?_eq_getElem hj, hja]
    have hv := valuesOf_unique hvs (column_values h2 j a hja')
    have hzero : ∀ x ∈ column s j, x = 0 := hz _ (by rw [htr]; exact List.mem_map.2 ⟨j, List.mem_range.2 hj, rfl⟩)
    rcases (hst.2 j ⟨r0, hr0, by rw [hp r0 hr0]; exact hj⟩).2 with ⟨hv1, -⟩ | ⟨hc, -⟩
    · exfalso
      have : variance (column s j) = 0 := by
        unfold variance
        refine mean_null fun y hy => ?_
        obtain ⟨x, hx, rfl⟩ := List.mem_map.1 hy
        rw [hzero x hx, mean_null hzero]
        simp
      rw [this] at hv1
      exact zero_ne_one hv1
    · rw [hv]; exact hc
  · intro hc r hr
    rw [htr] at hr
    obtain ⟨j, hj, rfl⟩ := List.mem_map.1 hr
    rw [List.mem_range] at hj
    have hja' : (d.commonAttributes O).2[j]? = some _ := List.getElem?_eq_getElem hj
    obtain ⟨c, hcc⟩ := hc _ (List.getElem_mem hj) _ (column_values h2 j _ hja')
    rcases (hst.2 j ⟨r0, hr0, by rw [hp r0 hr0]; exact hj⟩).2 with ⟨hv1, a, b, -, hab⟩ | ⟨-, hz⟩
    · exfalso
      have hcol : ∀ x ∈ column s j, x = a * c + b := by
        rw [hab]
        intro x hx
        obtain ⟨y, hy, rfl⟩ := List.mem_map.1 hx
        rw [hcc y hy]
      have hne' : column s j ≠ [] := by
        rw [hab]
        intro h0
        have := List.map_eq_nil_iff.1 h0
        have hmem : r0[j]'(by rw [hp r0 hr0]; exact hj) ∈ column m j :=
          mem_column.2 ⟨r0, hr0, List.getElem?_eq_getElem _⟩
        rw [this] at hmem
        simp at hmem
      have := (C50_variance hne').2.2.2 ⟨_, hcol⟩
      rw [this] at hv1
      exact zero_ne_one hv1
    · exact hz

/-- The normalized singular values, as many as the smaller of the numbers of objects and of attributes, are not negative, in decreasing
order, and sum to 1, if some attribute is not constant.
Missing: datasets whose attributes are all constant (`C161_singular_violated`). -/
theorem C161_singular_partial {O : Objs ω ℝ} {d : Ds ω ℝ} (h : Coherent O d) (hne : d.objects ≠ [])
    {svd : List (List ℝ) → List ℝ} (hs : IsSvd svd) {a : String} (ha : a ∈ (d.commonAttributes O).2)
    {vs : List ℝ} (hv : ValuesOf O d.objects a vs) (hvar : ¬ ∃ c, ∀ x ∈ vs, x = c) :
    ∃ (ns : List ℝ) (pts : List (Nat × Option ℝ)), d.singularValues O svd = .ok (ns.map some, pts) ∧ ns.length = min (d.commonAttributes O).2.length d.objects.length ∧
      (∀ x ∈ ns, 0 ≤ x) ∧ ns.Pairwise (· ≥ ·) ∧ ns.sum = 1 := by
  obtain ⟨sv, h1, h2, h3, h4, h5⟩ := singular_shape h hne (List.ne_nil_of_mem ha) hs
  have hsum : sv.sum ≠ 0 := fun h0 => hvar (h5.1 h0 a ha vs hv)
  have hpos : 0 < sv.sum := lt_of_le_of_ne (List.sum_nonneg h3) (Ne.symm hsum)
  refine ⟨sv.map (· / sv.sum), _, by rw [h1, Except.ok.injEq, Prod.mk.injEq]; exact ⟨by simp [shares, hsum], rfl⟩, by simpa using h2, ?_, ?_, ?_⟩
  · intro x hx
    obtain ⟨y, hy, rfl⟩ := List.mem_map.1 hx
    exact div_nonneg (h3 y hy) hpos.le
  · exact List.pairwise_map.2 (h4.imp fun hab => div_le_div_of_nonneg_right hab hpos.le)
  · have := sum_affine (sv.sum)⁻¹ 0 sv
    have he : (sv.map fun x => (sv.sum)⁻¹ * x + 0) = sv.map (· / sv.sum) := List.map_congr_left fun x _ => by rw [add_zero, div_eq_inv_mul]
    rw [he, mul_zero, add_zero, inv_mul_cancel₀ hsum] at this
    exact this

/-- If all the attributes are constant, as they are for a dataset of one object, the normalized singular values are all NaN: they do not
sum to 1. -/
theorem C161_singular_violated {O : Objs ω ℝ} {d : Ds ω ℝ} (h : Coherent O d) (hne : d.objects ≠ []) (ha : (d.commonAttributes O).2 ≠ [])
    {svd : List (List ℝ) → List ℝ} (hs : IsSvd svd)
    (hc : ∀ a ∈ (d.commonAttributes O).2, ∀ vs, ValuesOf O d.objects a vs → ∃ c, ∀ x ∈ vs, x = c) :
    ∃ ns pts, d.singularValues O svd = .ok (ns, pts) ∧ ns ≠ [] ∧ ∀ x ∈ ns, x = none := by
  obtain ⟨sv, h1, h2, h3, h4, h5⟩ := singular_shape h hne ha hs
  have hsum := h5.2 hc
  refine ⟨_, _, h1, ?_, ?_⟩
  · have h0 : 0 < min (d.commonAttributes O).2.length d.objects.length := by
      have := List.length_pos_iff.2 ha
      have := List.length_pos_iff.2 hne
      omega
    intro hnil
    have := congrArg List.length hnil
    simp [shares] at this
    rw [this] at h2
    simp at h2
    omega
  · intro x hx
    obtain ⟨y, -, rfl⟩ := List.mem_map.1 hx
    rw [if_pos hsum]

/-- The points of the plot are the normalized singular values numbered from 1; a null one is replaced by 1e-16. -/
theorem C161_points {O : Objs ω ℝ} {d : Ds ω ℝ} {svd : List (List ℝ) → List ℝ} {ns : List (Option ℝ)} {pts : List (Nat × Option ℝ)}
    (h : d.singularValues O svd = .ok (ns, pts)) : pts.length = ns.length ∧
      ∀ (i : Nat) (v : Option ℝ), ns[i]? = some v →
        (v ≠ some 0 → pts[i]? = some (i + 1, v)) ∧ (v = some 0 → ∃ t, 0 < t ∧ pts[i]? = some (i + 1, some t)) := by
  have he : pts = ns.mapIdx singularPoint := by
    unfold Ds.singularValues at h
    split at h
    · simp at h
    · split at h
      · simp at h
      · simp only [Except.ok.injEq, Prod.mk.injEq] at h
        rw [← h.1, ← h.2]
  subst he
  refine ⟨List.length_mapIdx, fun i v hv => ?_⟩
  rw [List.getElem?_mapIdx, hv, Option.map_some]
  refine ⟨fun h0 => by rw [singularPoint, if_neg h0], fun h0 => ⟨1 / 10 ^ 16, by positivity, by rw [singularPoint, if_pos h0]⟩⟩

open Classical in
/-- Not vacuous: singular values as numpy guarantees them; the attribute `x` of the dataset is not constant. -/
example : (∃ svd, IsSvd svd) ∧ Coherent pairObjs (Ds.init [(0, 1), (2, 1)] "d") ∧
    "x" ∈ ((Ds.init [(0, 1), (2, 1)] "d" : Ds (ℝ × ℝ) ℝ).commonAttributes pairObjs).2 ∧
    ValuesOf pairObjs (Ds.init [(0, 1), (2, 1)] "d" : Ds (ℝ × ℝ) ℝ).objects "x" [0, 2] ∧ ¬ ∃ c, ∀ x ∈ ([0, 2] : List ℝ), x = c := by
  refine ⟨⟨fun m => if ∀ r ∈ m, ∀ x ∈ r, x = 0 then List.replicate (min m.length (m.headD []).length) 0
    else 1 :: List.replicate (min m.length (m.headD []).length - 1) 0, fun n p m hn hp hpos => ?_⟩, C47_init _ _ rfl rfl,
    by rw [pair_attributes _ (by simp)]; simp, pair_values.1, ?_⟩
  · subst hn
    cases m with
    | nil => simp at hpos
    | cons r m =>
      have hr := hp r (.head _)
      by_cases hz : ∀ r' ∈ r :: m, ∀ x ∈ r', x = 0
      · simp only [if_pos hz]
        exact ⟨by simp [hr], by simp, by simp, fun _ => hz, fun _ x hx => List.eq_of_mem_replicate hx⟩
      · simp only [if_neg hz]
        have hp0 : 0 < p := by
          rcases Nat.eq_zero_or_pos p with h0 | h0
          · exact absurd (fun r' hr' x hx => by
              have := hp r' hr'
              rw [h0] at this
              rw [List.length_eq_zero_iff.1 this] at hx
              simp at hx) hz
          · exact h0
        refine ⟨?_, ?_, ?_, fun h => absurd (h 1 (.head _)) one_ne_zero, fun h => absurd h hz⟩
        · simp [hr]; omega
        · intro x hx
          rcases List.mem_cons.1 hx with rfl | hx
          · exact zero_le_one
          · rw [List.eq_of_mem_replicate hx]
        · rw [List.pairwise_cons]
          refine ⟨fun x hx => by rw [List.eq_of_mem_replicate hx]; exact zero_le_one, by simp⟩
  · rintro ⟨c, hc⟩
    have h1 := hc 0 (by simp)
    have h2 := hc 2 (by simp)
    rw [← h1] at h2
    norm_num at h2

/-- The Euclidean distance is symmetric, and null between equal vectors. -/
example : (∀ x, euclidian x x = 0) ∧ ∀ x y, euclidian x y = euclidian y x := by
  refine ⟨fun x => ((C49_euclidian x.length).eq_iff x x rfl rfl).2 rfl, fun x y => ?_⟩
  unfold euclidian
  rw [diff_swap x y]
  unfold l2Norm sumSq
  rw [List.map_map]
  congr 2
  refine List.map_congr_left fun a _ => ?_
  simp

/-- The distances between 0, 3 and 7: with the absolute difference of the first values. -/
example : ∃ D, (Ds.init [(0, 1), (3, 1), (7, 1)] "d" : Ds (ℝ × ℝ) ℝ).distanceMatrix pairObjs
    (fun _ _ x y => |x.headD 0 - y.headD 0|) "first" none = .ok D ∧ (D[0]?.bind (·[2]?)) = some 7 ∧ (D[2]?.bind (·[1]?)) = some 4 := by
  have hrow : ∀ o : ℝ × ℝ, List.Forall₂ (fun n v => ValueOf pairObjs o n v) ["x", "y"] [o.1, o.2] := fun o =>
    .cons ⟨0, rfl, rfl, fun j hj => absurd hj (Nat.not_lt_zero _)⟩ (.cons ⟨1, rfl, rfl, fun j hj => by
      have : j = 0 := by omega
      subst this
      exact fun h => absurd h (by decide : (["x", "y"] : List String)[0]? ≠ some "y")⟩ .nil)
  obtain ⟨D, h1, -, h3⟩ := C161_distances (C47_init pairObjs (Ds.init [(0, 1), (3, 1), (7, 1)] "d" : Ds (ℝ × ℝ) ℝ) rfl rfl)
    (by simp [Ds.init]) (fun _ _ x y => |x.headD 0 - y.headD 0|) "first" none (by simp) (fun x y => abs_sub_comm _ _)
  rw [pair_attributes _ (by simp)] at h3
  refine ⟨D, h1, ?_, ?_⟩
  · obtain ⟨row, hr, -, hj⟩ := h3 0 (0, 1) _ rfl (hrow _)
    rw [hr, Option.bind_some, hj 2 (7, 1) _ rfl (hrow _)]
    norm_num
  · obtain ⟨row, hr, -, hj⟩ := h3 2 (7, 1) _ rfl (hrow _)
    rw [hr, Option.bind_some, hj 1 (3, 1) _ rfl (hrow _)]
    norm_num

end DC.Data
