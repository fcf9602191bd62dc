import Verif.Data.Samples
import Verif.Data.StatsProps
import Verif.Data.PlotProps
/- Property C162: plots of a dataset. -/
namespace DC.Data

variable {ω F : Type} [Field F] [LinearOrder F] [IsStrictOrderedRing F]

set_option linter.unusedSectionVars false

/-! ### Specification -/

/-- `s` stands for the object `o`, the `i`-th one: it holds its value of each attribute, and its label if there is one, refers to it and is
named after it, or after its place if it has no name. -/
structure IsSampleOf (O : Objs ω F) (nameOf : ω → String) (names : List String) (label : Option Int) (ref : String) (i : Nat) (o : ω)
    (s : Sample F) : Prop where
  keys : s.values.map (·.1) = names ++ (if label.isSome then ["Cluster Label"] else [])
  value : ∀ a ∈ names, ∃ v, ValueOf O o a v ∧ s.values.lookup a = some (.inl v)
  label : ∀ l, label = some l → s.values.lookup "Cluster Label" = some (.inr l)
  path : s.path = ref ++ "/dessia_objects/" ++ toString i
  named : nameOf o ≠ "" → s.name = nameOf o
  unnamed : nameOf o = "" → s.name = "Sample " ++ toString i

/-- One sample for each object, in order. -/
def SamplesOf (O : Objs ω F) (nameOf : ω → String) (ref : String) (d : Ds ω F) (samples : List (Sample F)) : Prop :=
  samples.length = d.objects.length ∧ ∀ (i : Nat) (o : ω) (s : Sample F), d.objects[i]? = some o → samples[i]? = some s →
    IsSampleOf O nameOf (d.commonAttributes O).2 (d.labels.bind (·[i]?)) ref i o s

/-- The plot of two attributes: one against the other, or how the values of one are spread; one single value is shown as a point. -/
def PanelOf (O : Objs ω F) (objects : List ω) (a b : String) (p : Panel) : Prop :=
  (a ≠ b ∧ ∃ t, p = .scatter a b t) ∨
  (a = b ∧ ∃ vs, ValuesOf O objects a vs ∧ (((∃ c, c ∈ vs ∧ ∀ x ∈ vs, x = c) ∧ ∃ t, p = .scatter a a t) ∨
    ((¬ ∃ c, c ∈ vs ∧ ∀ x ∈ vs, x = c) ∧ p = .histogram a)))

/-! ### Helpers -/

theorem set_fresh {κ β : Type} [DecidableEq κ] {k : κ} (v : β) : ∀ {d : List (κ × β)}, k ∉ d.map (·.1) → Dict.set d k v = d ++ [(k, v)]
  | [], _ => rfl
  | (k', v') :: d, h => by
    simp only [List.map_cons, List.mem_cons, not_or] at h
    rw [Dict.set, if_neg (Ne.symm h.1), set_fresh v h.2]
    rfl

theorem sampleValues_aux (row : List F) : ∀ (names : List String) (k : Nat) (d : List (String × (F ⊕ Int))), names.Nodup →
    (∀ a ∈ names, a ∉ d.map (·.1)) → row.length = k + names.length →
    (names.zipIdx k).foldlM (sampleStep row) d = .ok (d ++ names.zip ((row.drop k).map Sum.inl))
  | [], k, d, _, _, _ => by simp [pure, Except.pure]
  | a :: names, k, d, hn, hd, hl => by
    rw [List.nodup_cons] at hn
    rw [List.zipIdx_cons, List.foldlM_cons]
    have hk : k < row.length := by rw [hl]; simp
    have hstep : sampleStep row d (a, k) = .ok (d ++ [(a, Sum.inl row[k])]) := by
      simp only [sampleStep, Py.get_nat, List.getElem?_eq_getElem hk]
      rw [set_fresh _ (hd a (.head _))]
    have ih := sampleValues_aux row names (k + 1) (d ++ [(a, Sum.inl row[k])]) hn.2 (fun b hb hc => by
      rw [List.map_append, List.mem_append] at hc
      rcases hc with hc | hc
      · exact hd b (.tail _ hb) hc
      · simp only [List.map_cons, List.map_nil, List.mem_singleton] at hc
        exact hn.1 (hc ▸ hb)) (by rw [hl, List.length_cons]; omega)
    rw [hstep]
    show List.foldlM _ _ _ = _
    rw [ih, List.drop_eq_getElem_cons hk, List.map_cons, List.zip_cons_cons, List.append_assoc]
    rfl

theorem sampleValues_ok {names : List String} {row : List F} (hn : names.Nodup) (hl : names.length = row.length) :
    valuesByName names row = .ok (names.zip (row.map Sum.inl)) := by
  have := sampleValues_aux row names 0 [] hn (by simp) (by omega)
  rw [valuesByName, this]
  simp

theorem zip_lookup {β : Type} {names : List String} {l : List β} (hn : names.Nodup) (hl : names.length = l.length) {j : Nat} {a : String} {b : β}
    (ha : names[j]? = some a) (hb : l[j]? = some b) : (names.zip l).lookup a = some b := by
  refine Dict.mem_lookup (by rw [List.map_fst_zip (by omega)]; exact hn) ?_
  exact List.mem_of_getElem? (i := j) (by rw [List.getElem?_zip_eq_some]; exact ⟨ha, hb⟩)

theorem objectToSample_ok {O : Objs ω F} {nameOf : ω → String} {names : List String} (hn : names.Nodup) {m : List (List F)}
    {labels : Option (List Int)} {ref : String} {o : ω} {i : Nat} {row : List F} (hm : m[i]? = some row)
    (hr : List.Forall₂ (fun a v => ValueOf O o a v) names row) {label : Option Int} (hl : labels.bind (·[i]?) = label)
    (hs : labels.isSome → label.isSome ∧ "Cluster Label" ∉ names) :
    ∃ s, objectToSample nameOf names m labels ref o i = .ok s ∧ IsSampleOf O nameOf names label ref i o s := by
  have hlen := hr.length_eq
  have hget : ∀ a ∈ names, ∃ v, ValueOf O o a v ∧ (names.zip (row.map (Sum.inl (β := Int)))).lookup a = some (.inl v) := by
    intro a ha
    obtain ⟨j, hj, rfl⟩ := List.mem_iff_getElem.1 ha
    have hj' : j < row.length := by omega
    refine ⟨row[j], (forall2_get.1 hr).2 j _ _ (List.getElem?_eq_getElem hj) (List.getElem?_eq_getElem hj'), ?_⟩
    exact zip_lookup hn (by simpa using hlen) (List.getElem?_eq_getElem hj) (by simp [List.getElem?_eq_getElem hj'])
  have hkeys : (names.zip (row.map (Sum.inl (β := Int)))).map (·.1) = names := List.map_fst_zip (by simp; omega)
  simp only [objectToSample, Py.get_nat, hm, sampleValues_ok hn hlen]
  cases labels with
  | none =>
    subst hl
    refine ⟨_, rfl, ⟨?_, hget, by simp, rfl, fun h => by simp [h], fun h => by simp [h]⟩⟩
    simpa using hkeys
  | some ls =>
    obtain ⟨h1, h2⟩ := hs rfl
    obtain ⟨l, rfl⟩ := Option.isSome_iff_exists.1 h1
    have hl' : ls[i]? = some l := hl
    simp only [addLabel, Py.get_nat, hl']
    refine ⟨_, rfl, ⟨?_, fun a ha => ?_, ?_, rfl, fun h => by simp [h], fun h => by simp [h]⟩⟩
    · simp only [clusterLabel]
      rw [set_fresh _ (by rw [hkeys]; exact h2), List.map_append, hkeys]
      rfl
    · obtain ⟨v, hv, hlo⟩ := hget a ha
      refine ⟨v, hv, ?_⟩
      simp only [clusterLabel]
      rw [Dict.lookup_set, if_neg (fun h : a = "Cluster Label" => h2 (h ▸ ha)), hlo]
    · intro l' hl''
      cases hl''
      simp only [clusterLabel]
      rw [Dict.lookup_set, if_pos rfl]

/-! ### C162 -/

/-- The samples of a dataset stand for its objects, one each, in order. -/
theorem C162_samples {O : Objs ω F} {d : Ds ω F} (h : Coherent O d) (hn : (d.commonAttributes O).2.Nodup)
    (hl : ∀ ls, d.labels = some ls → ls.length = d.objects.length ∧ "Cluster Label" ∉ (d.commonAttributes O).2) (nameOf : ω → String) (ref : String) :
    ∃ samples, d.toSamples O nameOf ref = .ok samples ∧ SamplesOf O nameOf ref d samples := by
  obtain ⟨e, m, h1, h2, -⟩ := C47_matrix h
  have key : ∀ (i : Nat) (o : ω), d.objects[i]? = some o → ∃ s, objectToSample nameOf (d.commonAttributes O).2 m d.labels ref o i = .ok s ∧
      IsSampleOf O nameOf (d.commonAttributes O).2 (d.labels.bind (·[i]?)) ref i o s := by
    intro i o ho
    have hi : i < d.objects.length := (List.getElem?_eq_some_iff.1 ho).1
    have hm : i < m.length := by rw [← h2.length_eq]; exact hi
    refine objectToSample_ok hn (List.getElem?_eq_getElem hm) ((forall2_get.1 h2).2 i o _ ho (List.getElem?_eq_getElem hm)) rfl fun hs => ?_
    obtain ⟨ls, hls⟩ := Option.isSome_iff_exists.1 hs
    obtain ⟨h3, h4⟩ := hl ls hls
    exact ⟨by rw [hls, Option.bind_some, List.getElem?_eq_getElem (by omega)]; rfl, h4⟩
  simp only [Ds.toSamples, h1]
  obtain ⟨samples, hs⟩ := mapM_exists (f := fun or : ω × Nat => objectToSample nameOf (d.commonAttributes O).2 m d.labels ref or.1 or.2)
    (l := d.objects.zipIdx) (fun or hor => by
      obtain ⟨s, hs, -⟩ := key or.2 or.1 (List.mem_zipIdx_iff_getElem?.1 hor)
      exact ⟨s, hs⟩)
  refine ⟨samples, hs, ?_, fun i o s ho hsi => ?_⟩
  · rw [← (Py.mapM_ok.1 hs).length_eq, List.length_zipIdx]
  · have := (forall2_get.1 (Py.mapM_ok.1 hs)).2 i (o, i) s (by rw [List.getElem?_zipIdx, ho]; simp) hsi
    obtain ⟨s', hs', hok⟩ := key i o ho
    rw [hs'] at this
    cases this
    exact hok

theorem distinct_one {A : Type} [DecidableEq A] {l : List A} : (distinctOf l).length = 1 ↔ ∃ c, c ∈ l ∧ ∀ x ∈ l, x = c := by
  have hmem : ∀ (l : List A) (x : A), x ∈ distinctOf l ↔ x ∈ l := by
    intro l
    induction l with
    | nil => simp [distinctOf]
    | cons a l ih =>
      intro x
      simp only [distinctOf, List.mem_cons, List.mem_filter, ih, decide_eq_true_eq]
      constructor
      · rintro (h | ⟨h, -⟩)
        · exact .inl h
        · exact .inr h
      · intro h
        by_cases hx : x = a
        · exact .inl hx
        · exact .inr ⟨h.resolve_left hx, hx⟩
  constructor
  · intro h
    obtain ⟨c, hc⟩ := List.length_eq_one_iff.1 h
    refine ⟨c, (hmem l c).1 (by rw [hc]; simp), fun x hx => ?_⟩
    have := (hmem l x).2 hx
    rw [hc] at this
    simpa using this
  · rintro ⟨c, hc, hall⟩
    cases l with
    | nil => simp at hc
    | cons a l =>
      have ha := hall a (.head _)
      have : (distinctOf l).filter (fun x => decide (x ≠ a)) = [] := by
        rw [List.filter_eq_nil_iff]
        intro x hx
        rw [hall x (.tail _ ((hmem l x).1 hx)), ha]
        simp
      simp only [distinctOf, this, List.length_cons, List.length_nil]

theorem histogramUnic_ok {O : Objs ω F} {names : List String} {objects : List ω} {m : List (List F)} (h : RowsOf O names objects m)
    {j : Nat} {a : String} (ha : names[j]? = some a) : ∃ p, histogramUnic m j a = .ok p ∧ PanelOf O objects a a p := by
  have hj : j < names.length := (List.getElem?_eq_some_iff.1 ha).1
  have hcol : (m.mapM fun row => Py.get row (j : Int)) = .ok (column m j) := by
    rw [Py.mapM_ok]
    have hlen : ∀ r ∈ m, j < r.length := by
      intro r hr
      obtain ⟨i, hi, rfl⟩ := List.mem_iff_getElem.1 hr
      have := (forall2_get.1 h).2 i _ _ (List.getElem?_eq_getElem (by rw [h.length_eq]; exact hi)) (List.getElem?_eq_getElem hi)
      rw [← this.length_eq]
      exact hj
    clear h
    induction m with
    | nil => exact .nil
    | cons r m ih =>
      have hr := hlen r (.head _)
      have : column (r :: m) j = r[j] :: column m j := by simp [column, List.getElem?_eq_getElem hr]
      rw [this]
      exact .cons (by rw [Py.get_nat, List.getElem?_eq_getElem hr]) (ih fun r hr => hlen r (.tail _ hr))
  have hv := column_values h j a ha
  simp only [histogramUnic, hcol]
  by_cases h1 : (distinctOf (column m j)).length = 1
  · exact ⟨_, if_pos h1, .inr ⟨rfl, _, hv, .inl ⟨distinct_one.1 h1, _, rfl⟩⟩⟩
  · exact ⟨_, if_neg h1, .inr ⟨rfl, _, hv, .inr ⟨fun hc => h1 (distinct_one.2 hc), rfl⟩⟩⟩

theorem subplots_ok {O : Objs ω F} {names : List String} {objects : List ω} {m : List (List F)} (hrows : RowsOf O names objects m)
    (tooltip : List String) : ∃ plots, subplots names m tooltip = .ok plots ∧ plots.length = names.length * names.length ∧
      ∀ (i j : Nat) (a b : String), names[i]? = some a → names[j]? = some b →
        ∃ p, plots[i * names.length + j]? = some p ∧ PanelOf O objects a b p := by
  unfold subplots
  have hpan : ∀ p ∈ names.flatMap (fun line => names.zipIdx.map fun cj => (line, cj)), ∃ q,
      (if p.1 = p.2.1 then histogramUnic m p.2.2 p.2.1 else .ok (.scatter p.1 p.2.1 tooltip)) = .ok q ∧ PanelOf O objects p.1 p.2.1 q := by
    intro p hp
    obtain ⟨line, -, hp⟩ := List.mem_flatMap.1 hp
    obtain ⟨cj, hcj, rfl⟩ := List.mem_map.1 hp
    have hc : names[cj.2]? = some cj.1 := List.mem_zipIdx_iff_getElem?.1 hcj
    by_cases he : line = cj.1
    · subst he
      simp only [if_true]
      exact histogramUnic_ok hrows hc
    · simp only [if_neg he]
      exact ⟨_, rfl, .inl ⟨he, _, rfl⟩⟩
  obtain ⟨plots, hp⟩ := mapM_exists (l := names.flatMap (fun line => names.zipIdx.map fun cj => (line, cj)))
    (f := fun p : String × String × Nat => if p.1 = p.2.1 then histogramUnic m p.2.2 p.2.1 else .ok (.scatter p.1 p.2.1 tooltip))
    (fun p hp => by obtain ⟨q, hq, -⟩ := hpan p hp; exact ⟨q, hq⟩)
  have hf := Py.mapM_ok.1 hp
  have hget : ∀ (l : List String) (i j : Nat) (a b : String), l[i]? = some a → names[j]? = some b →
      (l.flatMap (fun line => names.zipIdx.map fun cj => (line, cj)))[i * names.length + j]? = some (a, (b, j)) := by
    intro l
    induction l with
    | nil => intro i j a b ha; simp at ha
    | cons x l ih =>
      intro i j a b ha hb
      have hj : j < names.length := (List.getElem?_eq_some_iff.1 hb).1
      rw [List.flatMap_cons]
      cases i with
      | zero =>
        simp only [List.getElem?_cons_zero, Option.some.injEq] at ha
        subst ha
        rw [List.getElem?_append_left (by simpa using hj)]
        simp [List.getElem?_zipIdx, hb]
      | succ i =>
        have hlen : (names.zipIdx.map fun cj => (x, cj)).length = names.length := by simp
        have hmul : (i + 1) * names.length = i * names.length + names.length := Nat.succ_mul _ _
        rw [List.getElem?_append_right (by rw [hlen]; omega)]
        have : (i + 1) * names.length + j - (names.zipIdx.map fun cj => (x, cj)).length = i * names.length + j := by
          rw [hlen]; omega
        rw [this]
        exact ih i j a b (by simpa using ha) hb
  have hlen : ∀ l : List String, (l.flatMap (fun line => names.zipIdx.map fun cj => (line, cj))).length = l.length * names.length := by
    intro l
    induction l with
    | nil => simp
    | cons x l ih => rw [List.flatMap_cons, List.length_append, ih, List.length_cons, Nat.succ_mul]; simp; omega
  refine ⟨plots, hp, by rw [← hf.length_eq, hlen], fun i j a b ha hb => ?_⟩
  have h3 := hget names i j a b ha hb
  obtain ⟨hk, -⟩ := List.getElem?_eq_some_iff.1 h3
  have hk' : i * names.length + j < plots.length := by rw [← hf.length_eq]; exact hk
  refine ⟨_, List.getElem?_eq_getElem hk', ?_⟩
  have h4 := (forall2_get.1 hf).2 _ _ _ h3 (List.getElem?_eq_getElem hk')
  obtain ⟨q, hq, hok⟩ := hpan _ (List.mem_of_getElem? h3)
  rw [hq] at h4
  cases h4
  exact hok

/-- The scatter matrix of two attributes or more shows each of them against each other, row by row, with the samples of the objects. -/
theorem C162_matrix {O : Objs ω F} {d : Ds ω F} (h : Coherent O d) (hn : (d.commonAttributes O).2.Nodup)
    (hl : ∀ ls, d.labels = some ls → ls.length = d.objects.length ∧ "Cluster Label" ∉ (d.commonAttributes O).2) (nameOf : ω → String) (ref : String)
    (h2 : 2 ≤ (d.commonAttributes O).2.length) :
    ∃ plots samples families, d.plotScatterMatrix O nameOf ref = .ok (.matrix plots samples families) ∧ SamplesOf O nameOf ref d samples ∧
      plots.length = (d.commonAttributes O).2.length * (d.commonAttributes O).2.length ∧
      ∀ (i j : Nat) (a b : String), (d.commonAttributes O).2[i]? = some a → (d.commonAttributes O).2[j]? = some b →
        ∃ p, plots[i * (d.commonAttributes O).2.length + j]? = some p ∧ PanelOf O d.objects a b p := by
  obtain ⟨samples, hs1, hs2⟩ := C162_samples h hn hl nameOf ref
  obtain ⟨e, m, h1, hrows, -⟩ := C47_matrix h
  obtain ⟨plots, hp1, hp2, hp3⟩ := subplots_ok hrows (d.tooltip O)
  refine ⟨plots, samples, d.families, ?_, hs2, hp2, hp3⟩
  simp only [Ds.plotScatterMatrix, hs1, if_pos (show (d.commonAttributes O).2.length > 1 by omega), h1, hp1]

/-- In a scatter matrix, the points of the plots of two attributes are described by all the attributes, and by the cluster of the object if the
objects are clustered. -/
theorem C162_tooltip {O : Objs ω F} {d : Ds ω F} {nameOf : ω → String} {ref : String} {plots : List Panel} {samples : List (Sample F)}
    {families : List (List Nat)} (h : d.plotScatterMatrix O nameOf ref = .ok (.matrix plots samples families)) {a b : String} {t : List String}
    (hp : .scatter a b t ∈ plots) (hab : a ≠ b) : t = (d.commonAttributes O).2 ++ (if d.labels.isSome then ["Cluster Label"] else []) := by
  simp only [Ds.plotScatterMatrix] at h
  split at h
  · cases h
  split at h
  · split at h
    · cases h
    split at h
    · cases h
    rename_i dm _ plots' hsub
    cases h
    simp only [subplots] at hsub
    have hf := Py.mapM_ok.1 hsub
    obtain ⟨k, hk, hpk⟩ := List.mem_iff_getElem.1 hp
    have hk' : k < (((d.commonAttributes O).2.flatMap fun line => (d.commonAttributes O).2.zipIdx.map fun cj => (line, cj))).length := by
      rw [hf.length_eq]; exact hk
    have h1 := (forall2_get.1 hf).2 k _ _ (List.getElem?_eq_getElem hk') (List.getElem?_eq_getElem hk)
    rw [hpk] at h1
    split at h1
    · simp only [histogramUnic] at h1
      split at h1
      · cases h1
      split at h1
      · simp only [Except.ok.injEq, Panel.scatter.injEq] at h1
        exact absurd (h1.1.symm.trans h1.2.1) hab
      · simp at h1
    · simp only [Except.ok.injEq, Panel.scatter.injEq] at h1
      rw [← h1.2.2]
      unfold Ds.tooltip
      cases d.labels <;> simp [clusterLabel]
  · cases h

/-- A scatter matrix wants two attributes; a parallel plot wants one; without attribute both raise a ValueError and the histogram an
IndexError. -/
theorem C162_attributes {O : Objs ω F} {d : Ds ω F} (h : Coherent O d) (hn : (d.commonAttributes O).2.Nodup)
    (hl : ∀ ls, d.labels = some ls → ls.length = d.objects.length ∧ "Cluster Label" ∉ (d.commonAttributes O).2) (nameOf : ω → String) (ref : String)
    (axes : List String → Option (Except PyErr (List String))) :
    ((d.commonAttributes O).2.length ≤ 1 → d.plotScatterMatrix O nameOf ref = .error .valueError) ∧
    ((d.commonAttributes O).2 = [] → d.plotParallel O nameOf axes ref = some (.error .valueError) ∧
      d.plotHistogram O nameOf ref = .error .indexError) := by
  obtain ⟨samples, hs1, hs2⟩ := C162_samples h hn hl nameOf ref
  refine ⟨fun h1 => ?_, fun h0 => ?_⟩
  · simp only [Ds.plotScatterMatrix, hs1]
    rw [if_neg (by omega)]
  · simp only [Ds.plotParallel, Ds.plotHistogram, hs1, h0]
    simp

/-- The parallel plot of two attributes or more shows the samples of the objects along axes which are attributes, none repeated; that
of one attribute is its histogram, which shows how its values are spread. -/
theorem C162_parallel {O : Objs ω F} {d : Ds ω F} (h : Coherent O d) (hn : (d.commonAttributes O).2.Nodup)
    (hl : ∀ ls, d.labels = some ls → ls.length = d.objects.length ∧ "Cluster Label" ∉ (d.commonAttributes O).2) (nameOf : ω → String) (ref : String)
    {setOrder : List String → List String} {byScore : List (String × String) → List (String × String)} (ho : ∀ l, (setOrder l).Perm l)
    (hb : ∀ l, (byScore l).Perm l) (constant : String → Bool) :
    (2 ≤ (d.commonAttributes O).2.length → ∃ samples axes,
      d.plotParallel O nameOf (parallelAxes setOrder byScore constant) ref = some (.ok (.parallel samples axes)) ∧
      SamplesOf O nameOf ref d samples ∧ axes.Nodup ∧ ∀ a ∈ axes, a ∈ (d.commonAttributes O).2) ∧
    ∀ a, (d.commonAttributes O).2 = [a] → ∃ samples panel,
      d.plotParallel O nameOf (parallelAxes setOrder byScore constant) ref = some (.ok (.single panel samples)) ∧
      SamplesOf O nameOf ref d samples ∧ PanelOf O d.objects a a panel := by
  obtain ⟨samples, hs1, hs2⟩ := C162_samples h hn hl nameOf ref
  refine ⟨fun h2 => ?_, fun a ha => ?_⟩
  · obtain ⟨axes, h3, h4, h5⟩ := C91_axes ho hb constant hn
    refine ⟨samples, axes, ?_, hs2, h4, h5⟩
    simp only [Ds.plotParallel, hs1, if_pos (show (d.commonAttributes O).2.length > 1 by omega), h3]
    rfl
  · obtain ⟨e, m, h1, hrows, -⟩ := C47_matrix h
    rw [ha] at hrows
    obtain ⟨p, hp, hok⟩ := histogramUnic_ok hrows (j := 0) (a := a) rfl
    refine ⟨samples, p, ?_, hs2, hok⟩
    simp only [Ds.plotParallel, Ds.plotHistogram, hs1, ha, h1]
    simp [hp]

/-- In a dataset without labels, each sample is in one family; with labels, if these are the first natural numbers or -1, as
those of clustering algorithms are, too.  Missing for other labels: `C93_violated`. -/
theorem C162_families_partial {d : Ds ω F}
    (hl : ∀ ls, d.labels = some ls → ls.length = d.objects.length ∧ ∀ l ∈ ls, l = -1 ∨ 0 ≤ l ∧ l < nClusters ls) :
    d.families.flatten.Perm (List.range d.objects.length) := by
  unfold Ds.families
  cases h : d.labels with
  | none => simp
  | some ls =>
    obtain ⟨h1, h2⟩ := hl ls h
    rw [← h1]
    exact C93_partial h2

/-- A label missing: no plot. -/
theorem C162_labels_violated : ∃ (O : Objs (List Rat) Rat) (d : Ds (List Rat) Rat), Coherent O d ∧ d.objects.length = 2 ∧
    (d.toSamples O (fun _ => "") "#").map (fun _ => ()) = .error .indexError := by
  refine ⟨statObjs, Ds.initC [[0, 0], [2, 4]] (some [0]) "d", C47_init _ _ rfl rfl, rfl, by decide +kernel⟩

/-! ### Examples -/

/-- Two objects of two attributes: the first is named. -/
example : (((Ds.initC [[0, 0], [2, 4]] (some [0, 1]) "d" : Ds (List Rat) Rat).toSamples statObjs
      (fun o => if o = [0, 0] then "zero" else "") "#").toOption.map fun l => l.map fun s => (s.values, s.path, s.name)) =
    some [([("x", .inl 0), ("y", .inl 0), ("Cluster Label", .inr 0)], "#/dessia_objects/0", "zero"),
      ([("x", .inl 2), ("y", .inl 4), ("Cluster Label", .inr 1)], "#/dessia_objects/1", "Sample 1")] := by
  decide +kernel

/-- Not vacuous: a clustered dataset whose attributes are "x" and "y". -/
example : Coherent statObjs (Ds.initC [[0, 0], [2, 4]] (some [0, 1]) "d") ∧
    ((Ds.initC [[0, 0], [2, 4]] (some [0, 1]) "d" : Ds (List Rat) Rat).commonAttributes statObjs).2 = ["x", "y"] ∧
    (∀ ls, (Ds.initC [[0, 0], [2, 4]] (some [0, 1]) "d" : Ds (List Rat) Rat).labels = some ls → ls.length = 2 ∧
      ∀ l ∈ ls, l = -1 ∨ 0 ≤ l ∧ l < nClusters ls) := by
  refine ⟨C47_init _ _ rfl rfl, by decide +kernel, fun ls h => ?_⟩
  cases h
  decide

example : subplots ["x", "y"] ([[0, 5], [2, 5]] : List (List Rat)) ["x", "y"] =
    .ok [.histogram "x", .scatter "x" "y" ["x", "y"], .scatter "y" "x" ["x", "y"], .scatter "y" "y" []] := by
  decide +kernel

end DC.Data
