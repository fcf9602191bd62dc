import Mathlib.Tactic.Linarith
import Mathlib.Data.List.Nodup
import Verif.Data.Cluster
import Verif.Data.DatasetProps
import Verif.Data.ParetoProps
/-
Specification and properties of clustered datasets (C44, C48, C92, C93, C98).
-/
namespace DC.Data

set_option linter.unusedSectionVars false

variable {ω F : Type}

/-! ### Specification -/

/-- The objects having the label `c`, in order. -/
def withLabel (objects : List ω) (labels : List Int) (c : Int) : List ω := ((objects.zip labels).filter fun p => p.2 = c).map (·.1)

/-- An order in which the elements of the set of `p`-labels can be enumerated. -/
def IsEnum (order : List Int) (labels : List Int) (p : Int → Prop) : Prop := order.Nodup ∧ ∀ c, c ∈ order ↔ c ∈ labels ∧ p c

/-! ### Helpers -/

theorem distinct_aux : ∀ (l acc : List Int), acc.Nodup →
    (l.foldl (fun acc x => if x ∈ acc then acc else acc ++ [x]) acc).Nodup ∧
    ∀ c, c ∈ l.foldl (fun acc x => if x ∈ acc then acc else acc ++ [x]) acc ↔ c ∈ acc ∨ c ∈ l
  | [], acc, h => by simp [h]
  | x :: l, acc, h => by
    rw [List.foldl_cons]
    by_cases hx : x ∈ acc
    · rw [if_pos hx]
      obtain ⟨h1, h2⟩ := distinct_aux l acc h
      refine ⟨h1, fun c => ?_⟩
      rw [h2, List.mem_cons]
      constructor
      · rintro (h | h)
        · exact .inl h
        · exact .inr (.inr h)
      · rintro (h | rfl | h)
        · exact .inl h
        · exact .inl hx
        · exact .inr h
    · rw [if_neg hx]
      obtain ⟨h1, h2⟩ := distinct_aux l (acc ++ [x]) (by
        rw [List.nodup_append]
        refine ⟨h, by simp, fun a ha b hb => ?_⟩
        simp only [List.mem_singleton] at hb
        subst hb
        rintro rfl
        exact hx ha)
      refine ⟨h1, fun c => ?_⟩
      rw [h2]
      simp [or_assoc]

theorem distinct_nodup (l : List Int) : (distinct l).Nodup := (distinct_aux l [] .nil).1
theorem mem_distinct (l : List Int) (c : Int) : c ∈ distinct l ↔ c ∈ l := by
  have h := (distinct_aux l [] .nil).2 c
  rw [List.mem_nil_iff, false_or] at h
  exact h

theorem zip_replicate (s : List ω) (l : Int) : s.zip (List.replicate s.length l) = s.map fun o => (o, l) := by
  induction s with
  | nil => rfl
  | cons x s ih => rw [List.length_cons, List.replicate_succ, List.zip_cons_cons, ih, List.map_cons]

theorem nClusters_eq {clusters labels : List Int} (h : IsEnum clusters labels (· ≠ -1)) : clusters.length = nClusters labels := by
  unfold nClusters
  apply List.Perm.length_eq
  rw [List.perm_ext_iff_of_nodup h.1 ((distinct_nodup labels).filter _)]
  intro c
  rw [h.2, List.mem_filter, mem_distinct]
  simp

/-- The enumeration of the clusters followed by -1 if there are outliers. -/
def clustersThenOutliers (clusters labels : List Int) : List Int := clusters ++ if -1 ∈ labels then [-1] else []

theorem isEnum_append {clusters labels : List Int} (h : IsEnum clusters labels (· ≠ -1)) :
    IsEnum (clustersThenOutliers clusters labels) labels fun _ => True := by
  unfold clustersThenOutliers
  have hn : -1 ∉ clusters := fun hc => ((h.2 _).1 hc).2 rfl
  by_cases hm : -1 ∈ labels
  · rw [if_pos hm]
    refine ⟨?_, fun c => ?_⟩
    · rw [List.nodup_append]
      refine ⟨h.1, by simp, fun a ha b hb => ?_⟩
      simp only [List.mem_singleton] at hb
      subst hb
      rintro rfl
      exact hn ha
    · rw [List.mem_append, h.2, List.mem_singleton]
      constructor
      · rintro (⟨h, -⟩ | rfl)
        · exact ⟨h, trivial⟩
        · exact ⟨hm, trivial⟩
      · rintro ⟨h, -⟩
        by_cases hc : c = -1
        · exact .inr hc
        · exact .inl ⟨h, hc⟩
  · rw [if_neg hm, List.append_nil]
    refine ⟨h.1, fun c => ?_⟩
    rw [h.2]
    constructor
    · rintro ⟨h, -⟩; exact ⟨h, trivial⟩
    · rintro ⟨h, -⟩; exact ⟨h, fun hc => hm (hc ▸ h)⟩

theorem isEnum_length {a b labels : List Int} {p : Int → Prop} (ha : IsEnum a labels p) (hb : IsEnum b labels p) : a.length = b.length := by
  apply List.Perm.length_eq
  rw [List.perm_ext_iff_of_nodup ha.1 hb.1]
  intro c
  rw [ha.2, hb.2]

theorem fillSublists_spec {order : List Int} (ho : order.Nodup) (objects : List ω) : ∀ (labels : List Int) (start : Nat) (subs : List (List ω)),
    (∀ l ∈ labels, l ∈ order) → start + labels.length ≤ objects.length → order.length = subs.length →
    ∃ r, fillSublists order objects (labels.zipIdx start) subs = .ok r ∧ r.length = subs.length ∧
      ∀ (k : Nat) (c : Int) (s : List ω), order[k]? = some c → subs[k]? = some s → r[k]? = some (s ++ withLabel (objects.drop start) labels c)
  | [], start, subs, _, _, _ => ⟨subs, rfl, rfl, fun k c s _ hs => by simp [withLabel, hs]⟩
  | l :: labels, start, subs, h1, h2, h3 => by
    have hl := h1 l (.head _)
    obtain ⟨i, hi, hil⟩ : ∃ i, order.findIdx? (· == l) = some i ∧ order[i]? = some l := by
      cases hf : order.findIdx? (· == l) with
      | none =>
        rw [List.findIdx?_eq_none_iff] at hf
        have := hf l hl
        simp at this
      | some i =>
        rw [List.findIdx?_eq_some_iff_getElem] at hf
        obtain ⟨hlt, hx, -⟩ := hf
        exact ⟨i, rfl, by rw [List.getElem?_eq_getElem hlt]; simpa using hx⟩
    have hstart : start < objects.length := by simp only [List.length_cons] at h2; omega
    have hik : i < subs.length := by rw [← h3]; exact (List.getElem?_eq_some_iff.1 hil).1
    obtain ⟨r, g1, g2, g3⟩ := fillSublists_spec ho objects labels (start + 1) (subs.modify i (· ++ [objects[start]]))
      (fun x hx => h1 x (.tail _ hx)) (by simp only [List.length_cons] at h2; omega) (by simpa using h3)
    refine ⟨r, ?_, by simpa using g2, fun k c s hk hs => ?_⟩
    · rw [List.zipIdx_cons, fillSublists, hi]
      dsimp only
      rw [List.getElem?_eq_getElem hstart]
      dsimp only
      rw [if_pos hik]
      exact g1
    · have hdrop : objects.drop start = objects[start] :: objects.drop (start + 1) := List.drop_eq_getElem_cons hstart
      by_cases hki : k = i
      · subst hki
        rw [hil] at hk
        simp only [Option.some.injEq] at hk
        subst hk
        rw [g3 k l (s ++ [objects[start]]) hil (by rw [List.getElem?_modify]; simp [hs])]
        unfold withLabel
        rw [hdrop, List.zip_cons_cons, List.filter_cons_of_pos (by simp), List.map_cons, List.append_assoc]
        rfl
      · have hc : l ≠ c := by
          intro hlc
          subst hlc
          obtain ⟨hk1, hk2⟩ := List.getElem?_eq_some_iff.1 hk
          obtain ⟨hi1, hi2⟩ := List.getElem?_eq_some_iff.1 hil
          exact hki ((List.Nodup.getElem_inj_iff ho).1 (hk2.trans hi2.symm))
        rw [g3 k c s hk (by rw [List.getElem?_modify]; simp [hs, Ne.symm hki])]
        unfold withLabel
        rw [hdrop, List.zip_cons_cons, List.filter_cons_of_neg (by simpa using hc)]

/-! ### C48: sublists -/

theorem sublists_spec {order clusters labels : List Int} {name : String} {objects : List ω} (ho : IsEnum order labels fun _ => True)
    (hc : IsEnum clusters labels (· ≠ -1)) (hl : labels.length ≤ objects.length) :
    ∃ e : Ds (Ds ω F) F, Ds.clusteredSublists order clusters name objects labels = .ok e ∧ e.objects.length = order.length ∧
      e.labels = some (clustersThenOutliers clusters labels) ∧
      ∀ (k : Nat) (c : Int) (tag : String), order[k]? = some c →
        (sortBy (fun a b : String => decide (a ≤ b)) (clusters.map toString) ++ (if -1 ∈ labels then ["outliers"] else []))[k]? = some tag →
        e.objects[k]? = some (Ds.init (withLabel objects labels c) (name ++ "_" ++ tag)) := by
  have hlen : order.length = (clustersThenOutliers clusters labels).length := isEnum_length ho (isEnum_append hc)
  have hsub : (List.replicate (nClusters labels) ([] : List ω) ++ (if -1 ∈ labels then [[]] else [])) = List.replicate order.length [] := by
    rw [hlen, ← nClusters_eq hc]
    unfold clustersThenOutliers
    split
    · rw [List.length_append, List.length_singleton, List.replicate_succ']
    · simp
  obtain ⟨r, h1, h2, h3⟩ := fillSublists_spec ho.1 objects labels 0 (List.replicate order.length []) (fun l hl => (ho.2 l).2 ⟨hl, trivial⟩)
    (by simpa using hl) (by simp)
  have htags : (sortBy (fun a b : String => decide (a ≤ b)) (clusters.map toString) ++ (if -1 ∈ labels then ["outliers"] else [])).length = order.length := by
    rw [hlen, List.length_append, (sortBy_perm _ _).length_eq, List.length_map]
    unfold clustersThenOutliers
    split <;> simp
  unfold Ds.clusteredSublists
  dsimp only
  rw [hsub, h1]
  refine ⟨_, rfl, ?_, rfl, fun k c tag hk htag => ?_⟩
  · simp only [Ds.initC, List.length_zipWith, htags, h2, List.length_replicate, min_self]
  · have hlt : k < order.length := (List.getElem?_eq_some_iff.1 hk).1
    have := h3 k c [] hk (by rw [List.getElem?_replicate]; simp [hlt])
    simp only [Ds.initC, List.getElem?_zipWith, htag, this]
    simp

/-- There is one sublist per label, holding exactly the objects with this label, in order. -/
theorem C48_content {order clusters labels : List Int} {name : String} {objects : List ω} (ho : IsEnum order labels fun _ => True)
    (hc : IsEnum clusters labels (· ≠ -1)) (hl : labels.length = objects.length) :
    ∃ e : Ds (Ds ω F) F, Ds.clusteredSublists order clusters name objects labels = .ok e ∧ e.objects.length = order.length ∧
      ∀ (k : Nat) (c : Int), order[k]? = some c → ∃ s, e.objects[k]? = some s ∧ s.objects = withLabel objects labels c := by
  obtain ⟨e, h1, h2, -, h3⟩ := sublists_spec (F := F) (name := name) ho hc (by omega : labels.length ≤ objects.length)
  refine ⟨e, h1, h2, fun k c hk => ?_⟩
  have hlt : k < (sortBy (fun a b : String => decide (a ≤ b)) (clusters.map toString) ++ (if -1 ∈ labels then ["outliers"] else [])).length := by
    rw [List.length_append, (sortBy_perm _ _).length_eq, List.length_map]
    have := isEnum_length ho (isEnum_append hc)
    have hk' : k < order.length := (List.getElem?_eq_some_iff.1 hk).1
    unfold clustersThenOutliers at this
    split at this <;> simp_all
  exact ⟨_, h3 k c _ hk (List.getElem?_eq_getElem hlt), rfl⟩

/-- The sublists are paired with their labels if Python enumerates the set of labels like the set of clusters, the outliers being
last.  Missing for the full property: the other orders (`C48_labels_violated`). -/
theorem C48_labels_partial {clusters labels : List Int} {name : String} {objects : List ω} (hc : IsEnum clusters labels (· ≠ -1))
    (hl : labels.length = objects.length) :
    ∃ (e : Ds (Ds ω F) F) (tags : List Int), Ds.clusteredSublists (clustersThenOutliers clusters labels) clusters name objects labels = .ok e ∧
      e.labels = some tags ∧ tags.Nodup ∧ (∀ c, c ∈ tags ↔ c ∈ labels) ∧ e.objects.length = tags.length ∧
      ∀ (k : Nat) (c : Int), tags[k]? = some c → ∃ s, e.objects[k]? = some s ∧ s.objects = withLabel objects labels c := by
  have ho := isEnum_append hc
  obtain ⟨e, h1, h2, h3, -⟩ := sublists_spec (F := F) (name := name) ho hc (by omega : labels.length ≤ objects.length)
  obtain ⟨e', h1', -, h4⟩ := C48_content (F := F) (name := name) ho hc hl
  rw [h1] at h1'
  simp only [Except.ok.injEq] at h1'
  subst h1'
  exact ⟨e, _, h1, h3, ho.1, fun c => by rw [ho.2]; simp, h2, h4⟩

theorem sortBy_sorted {α : Type} {le : α → α → Bool} : ∀ {l : List α}, l.Pairwise (fun x y => le x y = true) → sortBy le l = l
  | [], _ => rfl
  | a :: l, h => by
    rw [List.pairwise_cons] at h
    rw [sortBy, sortBy_sorted h.2]
    cases l with
    | nil => rfl
    | cons b l =>
      rw [insertBy, if_pos (h.1 b (.head _))]

/-- The sublists are named after their labels if, moreover, the clusters are enumerated in the order of their decimal notations,
as 0, 1, ..., 9.  Missing for the full property: the other orders (`C48_names_violated`). -/
theorem C48_names_partial {clusters labels : List Int} {name : String} {objects : List ω} (hc : IsEnum clusters labels (· ≠ -1))
    (hl : labels.length = objects.length) (hs : (clusters.map toString).Pairwise (· ≤ ·)) :
    ∃ e : Ds (Ds ω F) F, Ds.clusteredSublists (clustersThenOutliers clusters labels) clusters name objects labels = .ok e ∧
      ∀ c ∈ labels, ∃ s ∈ e.objects, s.objects = withLabel objects labels c ∧
        s.name = name ++ "_" ++ (if c = -1 then "outliers" else toString c) := by
  have ho := isEnum_append hc
  obtain ⟨e, h1, h2, h3, h4⟩ := sublists_spec (F := F) (name := name) ho hc (by omega : labels.length ≤ objects.length)
  refine ⟨e, h1, fun c hcl => ?_⟩
  rw [sortBy_sorted (hs.imp fun h => by simpa using h)] at h4
  have hm : c ∈ clustersThenOutliers clusters labels := (ho.2 c).2 ⟨hcl, trivial⟩
  obtain ⟨k, hk⟩ := List.mem_iff_getElem?.1 hm
  have htag : (clusters.map toString ++ (if -1 ∈ labels then ["outliers"] else []))[k]? = some (if c = -1 then "outliers" else toString c) := by
    unfold clustersThenOutliers at hk
    by_cases hlt : k < clusters.length
    · rw [List.getElem?_append_left hlt] at hk
      rw [List.getElem?_append_left (by simpa using hlt), List.getElem?_map, hk]
      have : c ≠ -1 := ((hc.2 c).1 (List.mem_of_getElem? hk)).2
      simp [this]
    · rw [List.getElem?_append_right (by omega)] at hk
      rw [List.getElem?_append_right (by simpa using hlt)]
      split at hk
      · rename_i hx
        rw [if_pos hx]
        rw [List.length_map]
        have hmem := List.mem_of_getElem? hk
        simp only [List.mem_singleton] at hmem
        subst hmem
        have hk0 : k - clusters.length = 0 := by
          have := (List.getElem?_eq_some_iff.1 hk).1
          simpa using this
        rw [hk0]
        rfl
      · simp at hk
  exact ⟨_, List.mem_of_getElem? (h4 k c _ hk htag), rfl, rfl⟩

/-- **C48** Objects for which no labels are given make a single cluster, that of label 0, with all of them in their order. -/
theorem C48_default {objects : List ω} {name : String} (hne : objects ≠ []) :
    ∃ labels, (Ds.initC objects none name : Ds ω F).labels = some labels ∧ labels.length = objects.length ∧ IsEnum [0] labels (fun _ => True) ∧
      IsEnum [0] labels (· ≠ -1) ∧
      ∃ (e : Ds (Ds ω F) F) (s : Ds ω F), Ds.clusteredSublists [0] [0] name objects labels = .ok e ∧ e.objects = [s] ∧ s.objects = objects := by
  have hlen : (List.replicate objects.length (0 : Int)).length = objects.length := by simp
  have hl : objects.length ≠ 0 := fun h => hne (List.length_eq_zero_iff.1 h)
  have h1 : IsEnum [0] (List.replicate objects.length (0 : Int)) (fun _ => True) := by
    refine ⟨by simp, fun c => ?_⟩
    simp [List.mem_replicate, hl]
  have h2 : IsEnum [0] (List.replicate objects.length (0 : Int)) (· ≠ -1) := by
    refine ⟨by simp, fun c => ?_⟩
    simp only [List.mem_singleton, List.mem_replicate, ne_eq]
    constructor
    · rintro rfl
      exact ⟨⟨hl, rfl⟩, by decide⟩
    · exact fun h => h.1.2
  obtain ⟨e, e1, e2, e3⟩ := C48_content (F := F) (name := name) h1 h2 hlen
  obtain ⟨s, e4, e5⟩ := e3 0 0 rfl
  refine ⟨_, rfl, hlen, h1, h2, e, s, e1, ?_, ?_⟩
  · match h : e.objects, e2, e4 with
    | [x], _, e4 => rw [h] at *; simpa using e4
  · rw [e5]
    clear * -
    induction objects with
    | nil => rfl
    | cons o l ih => simpa [withLabel, List.replicate_succ] using ih

/-- With the labels -1 and 7, which CPython enumerates in this order, the outliers are given the label 7. -/
theorem C48_labels_violated : ∃ e : Ds (Ds Nat Rat) Rat, Ds.clusteredSublists [-1, 7] [7] "c" [10, 11] [-1, 7] = .ok e ∧
    IsEnum [-1, 7] [-1, 7] (fun _ => True) ∧ IsEnum [7] [-1, 7] (· ≠ -1) ∧
    e.objects.map (·.objects) = [[10], [11]] ∧ e.objects.map (·.name) = ["c_7", "c_outliers"] ∧ e.labels = some [7, -1] := by
  refine ⟨_, rfl, ⟨by decide, by simp⟩, ⟨by decide, fun c => ?_⟩, rfl, rfl, rfl⟩
  simp only [List.mem_singleton, List.mem_cons, List.not_mem_nil, or_false, ne_eq]
  constructor
  · rintro rfl; exact ⟨.inr rfl, by decide⟩
  · rintro ⟨h | h, h'⟩
    · exact absurd h h'
    · exact h

/-- With the labels 0 to 10, the third sublist, which holds the objects labeled 2, is named after the label 10. -/
theorem C48_names_violated : ∃ e : Ds (Ds Nat Rat) Rat, Ds.clusteredSublists [0, 1, 2, 3, 4, 5, 6, 7, 8, 9, 10] [0, 1, 2, 3, 4, 5, 6, 7, 8, 9, 10] "c"
    [0, 1, 2, 3, 4, 5, 6, 7, 8, 9, 10] [0, 1, 2, 3, 4, 5, 6, 7, 8, 9, 10] = .ok e ∧
    (e.objects[2]?.map fun s => (s.objects, s.name)) = some ([2], "c_10") := by
  refine ⟨_, rfl, ?_⟩
  decide +kernel

example : IsEnum [0, 1] [1, 0, -1, 0] (· ≠ -1) ∧ (([0, 1] : List Int).map toString).Pairwise (· ≤ ·) ∧
    withLabel ["a", "b", "c", "d"] [1, 0, -1, 0] 0 = ["b", "d"] := by
  refine ⟨⟨by decide, fun c => ?_⟩, by decide, rfl⟩
  simp only [List.mem_cons, List.not_mem_nil, or_false, ne_eq]
  omega

/-! ### C98: merging the sublists -/

theorem merge_fold : ∀ (subs : List (List ω)) (labels : List Int) (acc : List ω × List Int), acc.1.length = acc.2.length →
    let r := (subs.zip labels).foldl (fun acc p => (acc.1 ++ p.1, acc.2 ++ List.replicate p.1.length p.2)) acc
    r.1.length = r.2.length ∧ r.1.zip r.2 = acc.1.zip acc.2 ++ (subs.zip labels).flatMap fun p => p.1.map fun o => (o, p.2)
  | [], _, acc, h => by simp [h]
  | _ :: _, [], acc, h => by simp [h]
  | s :: subs, l :: labels, acc, h => by
    have ih := merge_fold subs labels (acc.1 ++ s, acc.2 ++ List.replicate s.length l) (by simp [h])
    simp only [List.zip_cons_cons, List.foldl_cons, List.flatMap_cons]
    refine ⟨ih.1, ?_⟩
    rw [ih.2, List.zip_append h, List.append_assoc]
    rw [zip_replicate]

/-- Merging labeled datasets gives each object with the label of its dataset. -/
theorem C98_merge {s : List ω} {subs : List (List ω)} {l : Int} {labels : List Int} (hs : s ≠ []) :
    ∃ objects labels', mergeSublists (s :: subs) (l :: labels) = .ok (objects, labels') ∧ objects.length = labels'.length ∧
      objects.zip labels' = ((s :: subs).zip (l :: labels)).flatMap fun p => p.1.map fun o => (o, p.2) := by
  have h := merge_fold subs labels (s, List.replicate s.length l) (by simp)
  refine ⟨_, _, by rw [mergeSublists, if_neg hs], h.1, ?_⟩
  rw [h.2, List.zip_cons_cons, List.flatMap_cons]
  rw [zip_replicate]

example : ∃ objects labels, mergeSublists [["a", "b"], [], ["c"]] [0, 1, -1] = .ok (objects, labels) ∧ objects.length = labels.length ∧
    objects.zip labels = [("a", 0), ("b", 0), ("c", -1)] := C98_merge (by decide)

theorem flatMap_filter_perm {α : Type} (f : α → Int) : ∀ (order : List Int) (l : List α), order.Nodup → (∀ x ∈ l, f x ∈ order) →
    (order.flatMap fun c => l.filter fun x => f x = c).Perm l
  | [], l, _, h => by
    cases l with
    | nil => exact .refl _
    | cons x l => exact absurd (h x (.head _)) (by simp)
  | c :: order, l, hn, h => by
    rw [List.nodup_cons] at hn
    rw [List.flatMap_cons]
    have hcong : (order.flatMap fun c' => l.filter fun x => f x = c') = order.flatMap fun c' => (l.filter fun x => ¬ f x = c).filter fun x => f x = c' := by
      apply List.flatMap_congr
      intro c' hc'
      rw [List.filter_filter]
      apply List.filter_congr
      intro x _
      by_cases hx : f x = c'
      · have : f x ≠ c := by rw [hx]; rintro rfl; exact hn.1 hc'
        simp [hx]
        rwa [hx] at this
      · simp [hx]
    rw [hcong]
    refine ((flatMap_filter_perm f order (l.filter fun x => ¬ f x = c) hn.2 ?_).append_left _).trans ?_
    · intro x hx
      rw [List.mem_filter] at hx
      have := h x hx.1
      rw [List.mem_cons] at this
      rcases this with h' | h'
      · simp [h'] at hx
      · exact h'
    · have := List.filter_append_perm (fun x => decide (f x = c)) l
      simpa using this

/-- Splitting then merging gives back the objects with their labels, if the set of labels is enumerated as in
`C48_labels_partial`.  Missing for the full property: the other orders (`C98_violated`). -/
theorem C98_partial {clusters labels : List Int} {name : String} {objects : List ω} (hc : IsEnum clusters labels (· ≠ -1))
    (hl : labels.length = objects.length) (hne : objects ≠ []) :
    ∃ (e : Ds (Ds ω F) F) (tags : List Int) (objects' : List ω) (labels' : List Int),
      Ds.clusteredSublists (clustersThenOutliers clusters labels) clusters name objects labels = .ok e ∧ e.labels = some tags ∧
      mergeSublists (e.objects.map (·.objects)) tags = .ok (objects', labels') ∧ objects'.length = labels'.length ∧
      (objects'.zip labels').Perm (objects.zip labels) := by
  obtain ⟨e, tags, h1, h2, h3, h4, h5, h6⟩ := C48_labels_partial (F := F) (name := name) hc hl
  have hsubs : e.objects.map (·.objects) = tags.map (withLabel objects labels) := by
    apply List.ext_getElem?
    intro k
    rw [List.getElem?_map, List.getElem?_map]
    cases hk : tags[k]? with
    | none =>
      rw [List.getElem?_eq_none_iff] at hk
      rw [List.getElem?_eq_none (by omega)]
      rfl
    | some c =>
      obtain ⟨s, hs1, hs2⟩ := h6 k c hk
      rw [hs1]
      simp [hs2]
  have hmem : ∀ c ∈ tags, withLabel objects labels c ≠ [] := by
    intro c hc' he
    obtain ⟨i, hi⟩ := List.mem_iff_getElem?.1 ((h4 c).1 hc')
    have hlt : i < objects.length := by rw [← hl]; exact (List.getElem?_eq_some_iff.1 hi).1
    have : (objects[i], c) ∈ (objects.zip labels).filter fun p => p.2 = c := by
      rw [List.mem_filter]
      refine ⟨List.mem_of_getElem? (i := i) ?_, by simp⟩
      rw [List.getElem?_zip_eq_some]
      exact ⟨List.getElem?_eq_getElem hlt, hi⟩
    unfold withLabel at he
    rw [List.map_eq_nil_iff] at he
    rw [he] at this
    simp at this
  cases htags : tags with
  | nil =>
    exfalso
    have hl0 : labels ≠ [] := fun h => hne (List.length_eq_zero_iff.1 (by rw [← hl, h]; rfl))
    obtain ⟨c, ls, hls⟩ := List.exists_cons_of_ne_nil hl0
    have := (h4 c).2 (by rw [hls]; exact .head _)
    rw [htags] at this
    simp at this
  | cons c ts =>
    obtain ⟨objects', labels', g1, g2, g3⟩ := C98_merge (s := withLabel objects labels c) (subs := ts.map (withLabel objects labels)) (l := c)
      (labels := ts) (hmem c (by rw [htags]; exact .head _))
    refine ⟨e, c :: ts, objects', labels', h1, htags ▸ h2, ?_, g2, ?_⟩
    · rw [hsubs, htags]
      exact g1
    · rw [g3]
      have hz : ∀ l : List Int, ((l.map (withLabel objects labels)).zip l).flatMap (fun p => p.1.map fun o => (o, p.2)) =
          l.flatMap fun c => (objects.zip labels).filter fun p => p.2 = c := by
        intro l
        induction l with
        | nil => rfl
        | cons c l ih =>
          rw [List.map_cons, List.zip_cons_cons, List.flatMap_cons, List.flatMap_cons, ih]
          congr 1
          unfold withLabel
          rw [List.map_map]
          conv_rhs => rw [← List.map_id ((objects.zip labels).filter fun p => p.2 = c)]
          apply List.map_congr_left
          intro p hp
          rw [List.mem_filter] at hp
          have := hp.2
          simp only [decide_eq_true_eq] at this
          simp [← this]
      have := hz (c :: ts)
      rw [List.map_cons] at this
      rw [this]
      refine flatMap_filter_perm (fun p : ω × Int => p.2) (c :: ts) _ (htags ▸ h3) fun p hp => ?_
      rw [← htags, h4]
      exact (List.of_mem_zip hp).2

example : ∃ (e : Ds (Ds String Rat) Rat) (tags : List Int) (objects' : List String) (labels' : List Int),
    Ds.clusteredSublists (clustersThenOutliers [0, 1] [1, 0, -1, 0]) [0, 1] "d" ["a", "b", "c", "e"] [1, 0, -1, 0] = .ok e ∧ e.labels = some tags ∧
    mergeSublists (e.objects.map (·.objects)) tags = .ok (objects', labels') ∧ objects'.length = labels'.length ∧
    (objects'.zip labels').Perm [("a", 1), ("b", 0), ("c", -1), ("e", 0)] :=
  C98_partial ⟨by decide, fun c => by simp; omega⟩ rfl (by simp)

/-- With the labels -1 and 7, the object labeled 7 comes back as an outlier and conversely. -/
theorem C98_violated : ∃ e : Ds (Ds Nat Rat) Rat, Ds.clusteredSublists [-1, 7] [7] "c" [10, 11] [-1, 7] = .ok e ∧ e.labels = some [7, -1] ∧
    mergeSublists (e.objects.map (·.objects)) [7, -1] = .ok ([10, 11], [7, -1]) := ⟨_, rfl, rfl, rfl⟩

/-! ### C92: centroids -/

/-- `o` is an element of the cluster whose distance is minimal. -/
def IsNearest [LinearOrder F] (sub : List ω) (ds : List F) (o : ω) : Prop :=
  ∃ (k : Nat) (d : F), sub[k]? = some o ∧ ds[k]? = some d ∧ ∀ d' ∈ ds, d ≤ d'

theorem foldl_min_spec [LinearOrder F] (v : List F) (a : F) : let m := v.foldl min a
    (m = a ∨ m ∈ v) ∧ m ≤ a ∧ ∀ x ∈ v, m ≤ x := by
  induction v generalizing a with
  | nil => simp
  | cons y v ih =>
    obtain ⟨h1, h2, h3⟩ := ih (min a y)
    refine ⟨?_, h2.trans (min_le_left a y), fun x hx => ?_⟩
    · rcases h1 with h1 | h1
      · rcases min_choice a y with h | h
        · left; rw [List.foldl_cons, h1, h]
        · right; rw [List.foldl_cons, h1, h]; exact .head _
      · exact .inr (.tail _ h1)
    · rcases List.mem_cons.1 hx with rfl | hx
      · exact h2.trans (min_le_right a x)
      · exact h3 x hx

theorem nearest_spec [LinearOrder F] {sub : List ω} {ds : List F} (hl : sub.length = ds.length) (hne : ds ≠ []) :
    ∃ o, nearest sub ds = .ok o ∧ IsNearest sub ds o := by
  cases ds with
  | nil => exact absurd rfl hne
  | cons d ds =>
    obtain ⟨h1, h2, h3⟩ := foldl_min_spec ds d
    have hmem : ds.foldl min d ∈ d :: ds := by
      rcases h1 with h1 | h1
      · rw [h1]; exact .head _
      · exact .tail _ h1
    have hle : ∀ x ∈ d :: ds, ds.foldl min d ≤ x := by
      intro x hx
      rcases List.mem_cons.1 hx with rfl | hx
      · exact h2
      · exact h3 x hx
    unfold nearest
    dsimp only
    cases hf : (d :: ds).findIdx? (· == ds.foldl min d) with
    | none =>
      rw [List.findIdx?_eq_none_iff] at hf
      have := hf _ hmem
      simp at this
    | some k =>
      rw [List.findIdx?_eq_some_iff_getElem] at hf
      obtain ⟨hlt, hx, -⟩ := hf
      have hlt' : k < sub.length := by omega
      refine ⟨sub[k], by simp [Py.get_nat, List.getElem?_eq_getElem hlt'], k, _, List.getElem?_eq_getElem hlt', List.getElem?_eq_getElem hlt, ?_⟩
      simp only [beq_iff_eq] at hx
      rw [hx]
      exact hle

theorem centroidLoop_spec [LinearOrder F] {subs : List (List ω)} {distances : List (List F)} (hlen : distances.length = subs.length)
    (hsub : ∀ (k : Nat) (sub : List ω) (ds : List F), subs[k]? = some sub → distances[k]? = some ds → sub.length = ds.length ∧ ds ≠ []) :
    ∀ (labels : List Int) (acc : List (Option ω)), acc.length = subs.length → (∀ l ∈ labels, ∃ k, Py.idx subs.length l = some k) →
    ∃ r, centroidLoop subs distances labels acc = .ok r ∧ r.length = subs.length ∧ ∀ k : Nat,
      ((∃ l ∈ labels, Py.idx subs.length l = some k) → ∃ sub ds o, subs[k]? = some sub ∧ distances[k]? = some ds ∧ r[k]? = some (some o) ∧ IsNearest sub ds o) ∧
      ((∀ l ∈ labels, Py.idx subs.length l ≠ some k) → r[k]? = acc[k]?)
  | [], acc, ha, _ => ⟨acc, rfl, ha, fun k => ⟨fun ⟨l, hl, _⟩ => by simp at hl, fun _ => rfl⟩⟩
  | l :: labels, acc, ha, h => by
    obtain ⟨i, hi⟩ := h l (.head _)
    have hilt := Py.idx_lt hi
    have hs := List.getElem?_eq_getElem hilt
    have hd := List.getElem?_eq_getElem (show i < distances.length by omega)
    obtain ⟨hx, hy⟩ := hsub i _ _ hs hd
    obtain ⟨o, ho1, ho2⟩ := nearest_spec hx hy
    obtain ⟨r, g1, g2, g3⟩ := centroidLoop_spec hlen hsub labels (acc.set i (some o)) (by simpa using ha) fun x hx => h x (.tail _ hx)
    refine ⟨r, ?_, g2, fun k => ⟨fun hk => ?_, fun hk => ?_⟩⟩
    · unfold centroidLoop
      rw [Py.get_ok.2 ⟨i, by rw [hlen]; exact hi, hd⟩, Py.get_ok.2 ⟨i, hi, hs⟩]
      simp only [bind, Except.bind, ho1]
      unfold putAt
      rw [ha, hi]
      exact g1
    · by_cases hlater : ∃ l ∈ labels, Py.idx subs.length l = some k
      · exact (g3 k).1 hlater
      · obtain ⟨l', hl', hk'⟩ := hk
        rcases List.mem_cons.1 hl' with rfl | hl'
        · rw [hi] at hk'
          simp only [Option.some.injEq] at hk'
          subst hk'
          refine ⟨_, _, o, hs, hd, ?_, ho2⟩
          rw [(g3 i).2 fun l hl hc => hlater ⟨l, hl, hc⟩, List.getElem?_set_self (by omega)]
        · exact absurd ⟨l', hl', hk'⟩ hlater
    · rw [(g3 k).2 fun l hl => hk l (.tail _ hl)]
      have hne : i ≠ k := by
        rintro rfl
        exact hk l (.head _) hi
      rw [List.getElem?_set_ne hne]

/-- If the labels, read as indices, designate every cluster, as 0, 1, ..., n - 1 or 0, 1, ..., n - 2, -1 do, the element nearest
to the mean is returned for every cluster.  Missing for the full property: the other labels (`C92_violated`). -/
theorem C92_partial [LinearOrder F] {subs : List (List ω)} {distances : List (List F)} {labels : List Int} (hlen : distances.length = subs.length)
    (hlab : labels.length = subs.length)
    (hsub : ∀ (k : Nat) (sub : List ω) (ds : List F), subs[k]? = some sub → distances[k]? = some ds → sub.length = ds.length ∧ ds ≠ [])
    (hvalid : ∀ l ∈ labels, ∃ k, Py.idx subs.length l = some k) (hall : ∀ k < subs.length, ∃ l ∈ labels, Py.idx subs.length l = some k) :
    ∃ r, realCentroids subs labels distances = .ok r ∧ r.length = subs.length ∧
      ∀ (k : Nat) (sub : List ω) (ds : List F), subs[k]? = some sub → distances[k]? = some ds → ∃ o, r[k]? = some (some o) ∧ IsNearest sub ds o := by
  obtain ⟨r, h1, h2, h3⟩ := centroidLoop_spec hlen hsub labels (List.replicate labels.length none) (by simpa using hlab) hvalid
  refine ⟨r, h1, h2, fun k sub ds hk hd => ?_⟩
  obtain ⟨sub', ds', o, g1, g2, g3, g4⟩ := (h3 k).1 (hall k (List.getElem?_eq_some_iff.1 hk).1)
  rw [hk] at g1
  rw [hd] at g2
  simp only [Option.some.injEq] at g1 g2
  subst g1
  subst g2
  exact ⟨o, g3, g4⟩

/-- Labels which are not indices of clusters raise an IndexError. -/
theorem C92_violated : realCentroids [[10, 11], [12]] [5, 7] [[(1 : Rat), 0], [0]] = .error .indexError := rfl

example : realCentroids [["a", "b"], ["c"], ["d", "e"]] [0, 1, -1] [[(1 : Nat), 0], [0], [2, 3]] = .ok [some "b", some "c", some "d"] := by decide +kernel

/-! ### C93: point families -/

theorem mem_indexesOf {labels : List Int} {c : Int} {i : Nat} : i ∈ indexesOf labels c ↔ labels[i]? = some c := by
  unfold indexesOf
  rw [List.mem_filter, List.mem_range, beq_iff_eq]
  constructor
  · exact fun h => h.2
  · exact fun h => ⟨(List.getElem?_eq_some_iff.1 h).1, h⟩

theorem families_nodup (labels : List Int) : (pointFamilies labels).flatten.Nodup := by
  have hfam : ∀ cs : List Int, cs.Nodup → ((cs.map (indexesOf labels)).flatten).Nodup := by
    intro cs hcs
    rw [List.nodup_flatten]
    refine ⟨fun l hl => ?_, ?_⟩
    · obtain ⟨c, -, rfl⟩ := List.mem_map.1 hl
      exact List.nodup_range.filter _
    · rw [List.pairwise_map]
      refine hcs.imp fun {a b} hne => ?_
      intro i hi hi'
      rw [mem_indexesOf] at hi hi'
      rw [hi] at hi'
      simp only [Option.some.injEq] at hi'
      exact hne hi'
  have he : pointFamilies labels = (((List.range (nClusters labels)).map fun (i : Nat) => (i : Int)) ++ (if -1 ∈ labels then [-1] else [])).map (indexesOf labels) := by
    unfold pointFamilies
    split <;> simp
  rw [he]
  apply hfam
  rw [List.nodup_append]
  refine ⟨List.nodup_range.map fun a b h => by simpa using h, by split <;> simp, fun a ha b hb => ?_⟩
  obtain ⟨i, -, rfl⟩ := List.mem_map.1 ha
  split at hb
  · simp only [List.mem_singleton] at hb
    subst hb
    omega
  · simp at hb

/-- If the labels are -1, 0, ..., n_clusters - 1, every object is in exactly one point family.  Missing for the full property: the
other labels (`C93_violated`). -/
theorem C93_partial {labels : List Int} (h : ∀ l ∈ labels, l = -1 ∨ 0 ≤ l ∧ l < nClusters labels) :
    (pointFamilies labels).flatten.Perm (List.range labels.length) := by
  rw [List.perm_ext_iff_of_nodup (families_nodup labels) List.nodup_range]
  intro i
  rw [List.mem_range, List.mem_flatten]
  constructor
  · rintro ⟨l, hl, hi⟩
    unfold pointFamilies at hl
    rcases List.mem_append.1 hl with hl | hl
    · obtain ⟨c, -, rfl⟩ := List.mem_map.1 hl
      rw [mem_indexesOf] at hi
      exact (List.getElem?_eq_some_iff.1 hi).1
    · split at hl
      · simp only [List.mem_singleton] at hl
        subst hl
        rw [mem_indexesOf] at hi
        exact (List.getElem?_eq_some_iff.1 hi).1
      · simp at hl
  · intro hi
    have hget := List.getElem?_eq_getElem hi
    have hmem := List.mem_of_getElem? hget
    rcases h _ hmem with hc | ⟨h0, hlt⟩
    · refine ⟨indexesOf labels (-1), ?_, mem_indexesOf.2 (by rw [hget, hc])⟩
      unfold pointFamilies
      rw [if_pos (hc ▸ hmem)]
      exact List.mem_append_right _ (.head _)
    · refine ⟨indexesOf labels (labels[i].toNat : Nat), ?_, mem_indexesOf.2 (by rw [hget]; congr 1; omega)⟩
      unfold pointFamilies
      exact List.mem_append_left _ (List.mem_map.2 ⟨labels[i].toNat, by rw [List.mem_range]; omega, rfl⟩)

/-- With a label which is not one of the first natural numbers, objects are in no family. -/
theorem C93_violated : pointFamilies [5, 5] = [[]] := by decide

example : pointFamilies [1, 0, -1, 0] = [[1, 3], [0], [2]] := by decide

/-! ### C44: labels of Pareto sheets -/

theorem pareto_fold : ∀ (sheets : List (List ω)) (start : Nat) (acc : List ω × List Int), (∀ s ∈ sheets, s ≠ []) →
    acc.1.length = acc.2.length →
    ∃ r, (sheets.zipIdx start).foldlM (fun (acc : List ω × List Int) p => do
      let objects ← extendWith acc.1 p.1
      some (objects, acc.2 ++ List.replicate p.1.length (p.2 : Int))) acc = some r ∧ r.1.length = r.2.length ∧
      r.1 = acc.1 ++ sheets.flatten ∧
      r.1.zip r.2 = acc.1.zip acc.2 ++ (sheets.zipIdx start).flatMap fun p => p.1.map fun o => (o, (p.2 : Int))
  | [], start, acc, _, h => ⟨acc, rfl, h, by simp, by simp⟩
  | s :: sheets, start, acc, hne, h => by
    obtain ⟨r, h1, h2, h3, h4⟩ := pareto_fold sheets (start + 1) (acc.1 ++ s, acc.2 ++ List.replicate s.length (start : Int))
      (fun x hx => hne x (.tail _ hx)) (by simp [h])
    refine ⟨r, ?_, h2, by rw [h3]; simp, ?_⟩
    · rw [List.zipIdx_cons, List.foldlM_cons]
      simp only [extendWith, if_neg (hne s (.head _))]
      exact h1
    · rw [h4, List.zip_append h, List.zipIdx_cons, List.flatMap_cons, List.append_assoc]
      rw [zip_replicate]

/-- If no sheet is empty and some objects are left, each object of the i-th sheet has the label i and the others have the number of
sheets for label.  Missing for the full property: the other cases (`C44_labels_violated`). -/
theorem C44_labels_partial {sheets : List (List ω)} {rest : List ω} (hs : ∀ s ∈ sheets, s ≠ []) (hr : rest ≠ []) :
    ∃ objects labels, fromParetoSheets sheets rest = some (objects, labels) ∧ objects = sheets.flatten ++ rest ∧ objects.length = labels.length ∧
      objects.zip labels = (sheets.zipIdx.flatMap fun p => p.1.map fun o => (o, (p.2 : Int))) ++ rest.map fun o => (o, (sheets.length : Int)) := by
  obtain ⟨r, h1, h2, h3, h4⟩ := pareto_fold sheets 0 ([], []) hs rfl
  refine ⟨r.1 ++ rest, r.2 ++ List.replicate rest.length (sheets.length : Int), ?_, by rw [h3]; simp, by simp [h2], ?_⟩
  · unfold fromParetoSheets
    rw [h1]
    simp [extendWith, hr]
  · rw [List.zip_append h2, h4]
    simp only [List.zip_nil_left, List.nil_append]
    rw [zip_replicate]

/-- If all the objects are in the asked sheets, the labelling never ends: for instance one sheet of two objects none of which is
better than the other. -/
theorem C44_labels_violated : sheetsOf sqScale (fun p : Rat × Rat => [p.1, p.2]) [(1, 5), (5, 1)] 1 = ([[(1, 5), (5, 1)]], []) ∧
    fromParetoSheets [[((1 : Rat), (5 : Rat)), (5, 1)]] [] = none := by
  constructor
  · decide +kernel
  · rfl

example : fromParetoSheets [["a", "b"], ["c"]] ["d"] = some (["a", "b", "c", "d"], [0, 0, 1, 2]) := rfl

end DC.Data
