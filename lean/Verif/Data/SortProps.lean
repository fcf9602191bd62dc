import Verif.Data.DatasetProps
import Verif.Util.Sort
/-
Specification and properties of the common attributes, the matrix, the sum and the sort of datasets (C46, C47, C88, C96).
-/
namespace DC.Data

set_option linter.unusedSectionVars false

variable {ω F : Type}

/-! ### Specification -/

/-- `v` is the value of the feature `a` of `o`: the value of `to_vector` standing at the place of the first `a` among the
features. -/
def ValueOf (O : Objs ω F) (o : ω) (a : String) (v : F) : Prop :=
  ∃ i : Nat, (O.features (O.cls o))[i]? = some a ∧ (O.vector o)[i]? = some v ∧ ∀ j : Nat, j < i → (O.features (O.cls o))[j]? ≠ some a

/-- Every name is a feature of every object. -/
def AllFeatures (O : Objs ω F) (names : List String) (objects : List ω) : Prop :=
  ∀ a ∈ names, ∀ o ∈ objects, a ∈ O.features (O.cls o)

/-- The rows are the values of the named features, object by object. -/
def RowsOf (O : Objs ω F) (names : List String) (objects : List ω) (m : List (List F)) : Prop :=
  List.Forall₂ (fun o row => List.Forall₂ (fun a v => ValueOf O o a v) names row) objects m

/-- C47: the common attributes answered by a dataset are features of all its objects, and its matrix, if it is already
computed, is made of their values. -/
def Coherent (O : Objs ω F) (d : Ds ω F) : Prop :=
  AllFeatures O (d.commonAttributes O).2 d.objects ∧ ∀ m, d.matrix = some m → RowsOf O (d.commonAttributes O).2 d.objects m

/-- A cached matrix comes with cached attributes, unless there is no object. -/
def Cached (d : Ds ω F) : Prop := d.matrix.isSome → d.common.isSome ∨ d.objects = []

/-- What numpy guarantees of `argsort`. -/
def IsArgsort [LE F] (argsort : List F → List Nat) : Prop :=
  ∀ vs, (argsort vs).Perm (List.range vs.length) ∧ ∀ vs', Picks (argsort vs) vs vs' → vs'.Pairwise (· ≤ ·)

/-! ### Helpers -/

theorem forall2_get {α β : Type} {R : α → β → Prop} : ∀ {l : List α} {r : List β},
    List.Forall₂ R l r ↔ l.length = r.length ∧ ∀ (i : Nat) (x : α) (y : β), l[i]? = some x → r[i]? = some y → R x y
  | [], [] => by simp
  | [], _ :: _ => by simp
  | _ :: _, [] => by simp
  | x :: l, y :: r => by
    rw [List.forall₂_cons, forall2_get (l := l) (r := r)]
    constructor
    · rintro ⟨h1, h2, h3⟩
      refine ⟨by simp [h2], fun i => ?_⟩
      cases i with
      | zero => intro x' y' hx hy; simp at hx hy; subst hx; subst hy; exact h1
      | succ i => intro x' y' hx hy; simp at hx hy; exact h3 i x' y' hx hy
    · rintro ⟨h1, h2⟩
      exact ⟨h2 0 x y rfl rfl, by simpa using h1, fun i x' y' hx hy => h2 (i + 1) x' y' (by simpa using hx) (by simpa using hy)⟩

theorem valueOf_iff {O : Objs ω F} {o : ω} {a : String} {v : F} : featureValue O o a = .ok v ↔ ValueOf O o a v := by
  unfold featureValue ValueOf
  cases h : (O.features (O.cls o)).findIdx? (· == a) with
  | none =>
    rw [List.findIdx?_eq_none_iff] at h
    simp only [reduceCtorEq, false_iff, not_exists, not_and]
    intro i hi
    have := h a (List.mem_of_getElem? hi)
    simp at this
  | some i =>
    rw [List.findIdx?_eq_some_iff_getElem] at h
    obtain ⟨hlt, h1, h2⟩ := h
    simp only [beq_iff_eq] at h1 h2
    have hlt' : i < (O.vector o).length := by rw [O.aligned]; exact hlt
    simp only [Py.get_nat, List.getElem?_eq_getElem hlt']
    constructor
    · intro h
      simp only [Except.ok.injEq] at h
      subst h
      refine ⟨i, by rw [List.getElem?_eq_getElem hlt, h1], List.getElem?_eq_getElem hlt', fun j hj => ?_⟩
      rw [List.getElem?_eq_getElem (by omega)]
      have := h2 j hj
      simpa using this
    · rintro ⟨k, g1, g2, g3⟩
      have : k = i := by
        rcases Nat.lt_trichotomy k i with h | h | h
        · have := h2 k h
          rw [List.getElem?_eq_getElem (by omega)] at g1
          simp only [Option.some.injEq] at g1
          exact absurd g1 (by simpa using this)
        · exact h
        · exact absurd (by rw [List.getElem?_eq_getElem hlt, h1]) (g3 i h)
      subst this
      rw [List.getElem?_eq_getElem hlt'] at g2
      simpa using g2

theorem featureValue_exists {O : Objs ω F} {o : ω} {a : String} (h : a ∈ O.features (O.cls o)) : ∃ v, featureValue O o a = .ok v := by
  unfold featureValue
  cases hf : (O.features (O.cls o)).findIdx? (· == a) with
  | none =>
    rw [List.findIdx?_eq_none_iff] at hf
    have := hf a h
    simp at this
  | some i =>
    rw [List.findIdx?_eq_some_iff_getElem] at hf
    obtain ⟨hlt, -, -⟩ := hf
    have hlt' : i < (O.vector o).length := by rw [O.aligned]; exact hlt
    exact ⟨(O.vector o)[i], by simp [Py.get_nat, List.getElem?_eq_getElem hlt']⟩

theorem mapM_exists {α β ε : Type} {f : α → Except ε β} : ∀ {l : List α}, (∀ x ∈ l, ∃ y, f x = .ok y) → ∃ r, l.mapM f = .ok r
  | [], _ => ⟨[], rfl⟩
  | x :: l, h => by
    obtain ⟨y, hy⟩ := h x (.head _)
    obtain ⟨r, hr⟩ := mapM_exists (l := l) fun z hz => h z (.tail _ hz)
    exact ⟨y :: r, by simp [List.mapM_cons, hy, hr, bind, Except.bind, pure, Except.pure]⟩

/-! ### Common attributes -/

theorem mem_oneInstance_aux {O : Objs ω F} : ∀ (objects : List ω) (acc : List Nat × List ω),
    (∀ c, c ∈ acc.1 ↔ ∃ o ∈ acc.2, O.cls o = c) →
    let r := objects.foldl (fun (acc : List Nat × List ω) o =>
      if O.cls o ∈ acc.1 then acc else (acc.1 ++ [O.cls o], acc.2 ++ [o])) acc
    (∀ c, (∃ o ∈ r.2, O.cls o = c) ↔ (∃ o ∈ acc.2, O.cls o = c) ∨ ∃ o ∈ objects, O.cls o = c) ∧ ∀ o ∈ r.2, o ∈ acc.2 ∨ o ∈ objects
  | [], acc, _ => by simp
  | o :: objects, acc, h => by
    intro r
    by_cases hc : O.cls o ∈ acc.1
    · have ih := mem_oneInstance_aux (O := O) objects acc h
      have hr : r = objects.foldl (fun (acc : List Nat × List ω) o =>
          if O.cls o ∈ acc.1 then acc else (acc.1 ++ [O.cls o], acc.2 ++ [o])) acc := by
        simp only [r, List.foldl_cons, if_pos hc]
      rw [hr]
      refine ⟨fun c => ?_, fun x hx => ?_⟩
      · rw [ih.1]
        constructor
        · rintro (h | ⟨x, hx, hxc⟩)
          · exact .inl h
          · exact .inr ⟨x, .tail _ hx, hxc⟩
        · rintro (h' | ⟨x, hx, hxc⟩)
          · exact .inl h'
          · rcases List.mem_cons.1 hx with rfl | hx
            · exact .inl ((h c).1 (hxc ▸ hc))
            · exact .inr ⟨x, hx, hxc⟩
      · rcases ih.2 x hx with h | h
        · exact .inl h
        · exact .inr (.tail _ h)
    · have ih := mem_oneInstance_aux (O := O) objects (acc.1 ++ [O.cls o], acc.2 ++ [o]) (by
        intro c
        simp only [List.mem_append, List.mem_singleton, or_and_right, exists_or, exists_eq_left, h]
        simp [eq_comm])
      have hr : r = objects.foldl (fun (acc : List Nat × List ω) o =>
          if O.cls o ∈ acc.1 then acc else (acc.1 ++ [O.cls o], acc.2 ++ [o])) (acc.1 ++ [O.cls o], acc.2 ++ [o]) := by
        simp only [r, List.foldl_cons, if_neg hc]
      rw [hr]
      refine ⟨fun c => ?_, fun x hx => ?_⟩
      · rw [ih.1]
        simp [or_and_right, exists_or, or_assoc]
      · rcases ih.2 x hx with h | h
        · simp only [List.mem_append, List.mem_singleton] at h
          rcases h with h | rfl
          · exact .inl h
          · exact .inr (.head _)
        · exact .inr (.tail _ h)

theorem oneInstance_cls {O : Objs ω F} {objects : List ω} (c : Nat) :
    (∃ o ∈ oneInstance O objects, O.cls o = c) ↔ ∃ o ∈ objects, O.cls o = c := by
  have := (mem_oneInstance_aux (O := O) objects ([], []) (by simp)).1 c
  simpa [oneInstance] using this

theorem mem_keepOrder : ∀ (all set : List String) (a : String), a ∈ keepOrder set all ↔ a ∈ set ∧ a ∈ all
  | [], set, a => by simp [keepOrder]
  | x :: all, set, a => by
    unfold keepOrder
    split
    · rename_i hx
      rw [List.mem_cons, mem_keepOrder all, List.mem_filter]
      by_cases ha : a = x
      · subst ha; simp [hx]
      · simp [ha]
    · rename_i hx
      rw [mem_keepOrder all]
      constructor
      · rintro ⟨h1, h2⟩; exact ⟨h1, .tail _ h2⟩
      · rintro ⟨h1, h2⟩
        rcases List.mem_cons.1 h2 with rfl | h2
        · exact absurd h1 hx
        · exact ⟨h1, h2⟩

theorem nodup_keepOrder : ∀ (all set : List String), (keepOrder set all).Nodup
  | [], _ => .nil
  | x :: all, set => by
    unfold keepOrder
    split
    · refine List.nodup_cons.2 ⟨fun h => ?_, nodup_keepOrder all _⟩
      have := ((mem_keepOrder all _ x).1 h).1
      simp at this
    · exact nodup_keepOrder all set

theorem keepOrder_sublist : ∀ (all set : List String), (keepOrder set all).Sublist all
  | [], _ => .slnil
  | x :: all, set => by
    unfold keepOrder
    split
    · exact (keepOrder_sublist all _).cons_cons x
    · exact (keepOrder_sublist all _).cons x

/-- The common attributes of a fresh dataset which is not empty are exactly the features of all its objects, each once. -/
theorem C47_common {O : Objs ω F} {d : Ds ω F} (hc : d.common = none) (hne : d.objects ≠ []) :
    (∀ a, a ∈ (d.commonAttributes O).2 ↔ ∀ o ∈ d.objects, a ∈ O.features (O.cls o)) ∧ (d.commonAttributes O).2.Nodup := by
  have hn : d.objects.length ≠ 0 := fun h => hne (List.length_eq_zero_iff.1 h)
  have he : (d.commonAttributes O).2 = computeCommon O d.objects := by simp [Ds.commonAttributes, hc, hne]
  rw [he]
  refine ⟨fun a => ?_, nodup_keepOrder _ _⟩
  unfold computeCommon
  simp only [mem_keepOrder, List.mem_filter, List.mem_flatMap, List.all_eq_true, decide_eq_true_eq]
  constructor
  · rintro ⟨⟨-, h⟩, -⟩ o ho
    obtain ⟨o', ho', hcls⟩ := (oneInstance_cls (O := O) (O.cls o)).2 ⟨o, ho, rfl⟩
    rw [← hcls]
    exact h o' ho'
  · intro h
    have hinst : ∀ o ∈ oneInstance O d.objects, a ∈ O.features (O.cls o) := by
      intro o ho
      obtain ⟨o', ho', hcls⟩ := (oneInstance_cls (O := O) (O.cls o)).1 ⟨o, ho, rfl⟩
      rw [← hcls]
      exact h o' ho'
    obtain ⟨o, l, hl⟩ := List.exists_cons_of_ne_nil hne
    obtain ⟨o', ho', -⟩ := (oneInstance_cls (O := O) (objects := d.objects) (O.cls o)).2 ⟨o, by rw [hl]; exact .head _, rfl⟩
    exact ⟨⟨⟨o', ho', hinst o' ho'⟩, hinst⟩, ⟨o', ho', hinst o' ho'⟩⟩

/-- A fresh dataset is coherent. -/
theorem C47_init (O : Objs ω F) (d : Ds ω F) (hc : d.common = none) (hm : d.matrix = none) : Coherent O d := by
  refine ⟨fun a ha o ho => ?_, fun m h => by rw [hm] at h; simp at h⟩
  by_cases hne : d.objects = []
  · rw [hne] at ho; simp at ho
  · exact ((C47_common hc hne).1 a).1 ha o ho

theorem common_congr (O : Objs ω F) {d e : Ds ω F} (hc : e.common = d.common) (ho : e.objects = d.objects) :
    (e.commonAttributes O).2 = (d.commonAttributes O).2 := by
  unfold Ds.commonAttributes
  rw [hc, ho]
  cases d.common with
  | some c => rfl
  | none => dsimp only; split <;> rfl

theorem commonAttributes_idem (O : Objs ω F) (d : Ds ω F) : ((d.commonAttributes O).1.commonAttributes O).2 = (d.commonAttributes O).2 := by
  unfold Ds.commonAttributes
  cases hc : d.common with
  | some c => simp [hc]
  | none =>
    by_cases hn : d.objects.length = 0
    · simp [hn, hc]
    · simp [hn]

theorem commonAttributes_fields (O : Objs ω F) (d : Ds ω F) : (d.commonAttributes O).1.objects = d.objects ∧
    (d.commonAttributes O).1.matrix = d.matrix ∧ (d.commonAttributes O).1.labels = d.labels := by
  unfold Ds.commonAttributes
  cases hc : d.common with
  | some c => simp
  | none => dsimp only; split <;> simp

/-- Reading the common attributes keeps the dataset coherent. -/
theorem C47_read {O : Objs ω F} {d : Ds ω F} (h : Coherent O d) : Coherent O (d.commonAttributes O).1 := by
  obtain ⟨h1, h2, -⟩ := commonAttributes_fields O d
  unfold Coherent
  rw [commonAttributes_idem, h1, h2]
  exact h

theorem cached_read {O : Objs ω F} {d : Ds ω F} (h : Cached d) : Cached (d.commonAttributes O).1 := by
  intro hm
  obtain ⟨h1, h2, -⟩ := commonAttributes_fields O d
  rw [h2] at hm
  rw [h1]
  rcases h hm with hc | hc
  · left
    unfold Ds.commonAttributes
    obtain ⟨c, hc⟩ := Option.isSome_iff_exists.1 hc
    simp [hc]
  · exact .inr hc

theorem rows_ok {O : Objs ω F} {names : List String} {objects : List ω} {m : List (List F)} :
    (objects.mapM fun o => names.mapM (featureValue O o)) = .ok m ↔ RowsOf O names objects m := by
  rw [Py.mapM_ok]
  constructor
  · intro h
    refine h.imp fun o row hr => ?_
    exact (Py.mapM_ok.1 hr).imp fun a v hv => valueOf_iff.1 hv
  · intro h
    exact h.imp fun o row hr => Py.mapM_ok.2 (hr.imp fun a v hv => valueOf_iff.2 hv)

/-- The matrix of a coherent dataset can always be read, it holds the values of the common attributes of every object, and the
dataset stays coherent. -/
theorem C47_matrix {O : Objs ω F} {d : Ds ω F} (h : Coherent O d) :
    ∃ e m, d.getMatrix O = .ok (e, m) ∧ RowsOf O (d.commonAttributes O).2 d.objects m ∧ Coherent O e ∧ e.matrix = some m ∧
      e.objects = d.objects ∧ e.labels = d.labels ∧ (e.commonAttributes O).2 = (d.commonAttributes O).2 ∧ (Cached d → Cached e) := by
  unfold Ds.getMatrix
  cases hm : d.matrix with
  | some m => exact ⟨d, m, rfl, h.2 m hm, h, hm, rfl, rfl, rfl, id⟩
  | none =>
    obtain ⟨m, hr⟩ := mapM_exists (f := fun o => (d.commonAttributes O).2.mapM (featureValue O o)) (l := d.objects)
      fun o ho => mapM_exists fun a ha => featureValue_exists (h.1 a ha o ho)
    obtain ⟨g1, g2, g3⟩ := commonAttributes_fields O d
    have hrow := rows_ok.1 hr
    dsimp only
    rw [hr]
    have he : (({ (d.commonAttributes O).1 with matrix := some m } : Ds ω F).commonAttributes O).2 = (d.commonAttributes O).2 := by
      rw [← commonAttributes_idem O d]
      exact common_congr O rfl rfl
    refine ⟨_, m, rfl, hrow, ?_, rfl, g1, g3, he, fun _ _ => ?_⟩
    · unfold Coherent
      rw [he]
      dsimp only
      rw [g1]
      exact ⟨h.1, fun m' hm' => by simp only [Option.some.injEq] at hm'; exact hm' ▸ hrow⟩
    · dsimp only
      rw [g1]
      unfold Ds.commonAttributes
      cases hc : d.common with
      | some c => exact .inl (by simp [hc])
      | none =>
        dsimp only
        by_cases hn : d.objects.length = 0
        · exact .inr (List.length_eq_zero_iff.1 hn)
        · rw [if_neg hn]; exact .inl rfl

/-! ### Selecting keeps coherence -/

theorem picks_zip {α β : Type} {R : α → β → Prop} {l l' : List α} {r r' : List β} (h : List.Forall₂ R l r) :
    ∀ {idx : List Nat}, Picks idx l l' → Picks idx r r' → List.Forall₂ R l' r' := by
  intro idx hl hr
  have hg := (forall2_get.1 h).2
  induction hl generalizing r' with
  | nil => cases hr; exact .nil
  | cons hi _ ih =>
    cases hr with
    | cons hj hr => exact .cons (hg _ _ _ hi hj) (ih hr)

/-- Datasets holding part of the objects of a coherent dataset, with the matching rows and the same cache of common attributes,
are coherent. -/
theorem coherent_of_selects {O : Objs ω F} {d e : Ds ω F} {idx : List Nat} (h : Coherent O d) (hs : Picks idx d.objects e.objects)
    (hsm : ∀ m, d.matrix = some m → ∃ m', e.matrix = some m' ∧ Picks idx m m') (hc : e.common = d.common)
    (hm : d.matrix = none → e.matrix = none) (hcache : d.matrix.isSome → d.common.isSome ∨ d.objects = []) : Coherent O e := by
  have hobj : ∀ o ∈ e.objects, o ∈ d.objects := fun o ho => picks_mem hs ho
  cases hdc : d.common with
  | some c =>
    have h1 : (d.commonAttributes O).2 = c := by simp [Ds.commonAttributes, hdc]
    have h2 : (e.commonAttributes O).2 = c := by simp [Ds.commonAttributes, hc, hdc]
    unfold Coherent at h ⊢
    rw [h1] at h
    rw [h2]
    refine ⟨fun a ha o ho => h.1 a ha o (hobj o ho), fun m' hm' => ?_⟩
    cases hdm : d.matrix with
    | none => rw [hm hdm] at hm'; simp at hm'
    | some m =>
      obtain ⟨m'', hm'', hp⟩ := hsm m hdm
      rw [hm''] at hm'
      simp only [Option.some.injEq] at hm'
      subst hm'
      exact picks_zip (h.2 m hdm) hs hp
  | none =>
    cases hdm : d.matrix with
    | none => exact C47_init O e (hc.trans hdc) (hm hdm)
    | some m =>
      rcases hcache (by rw [hdm]; rfl) with h' | h'
      · rw [hdc] at h'; simp at h'
      · have he : e.objects = [] := by
          cases hx : e.objects with
          | nil => rfl
          | cons o l => exact absurd (hobj o (by rw [hx]; exact .head _)) (by rw [h']; simp)
        unfold Coherent
        rw [he]
        refine ⟨fun _ _ o ho => by simp at ho, fun m' hm' => ?_⟩
        obtain ⟨m'', hm'', hp⟩ := hsm m hdm
        rw [hm''] at hm'
        simp only [Option.some.injEq] at hm'
        subst hm'
        have := hs
        rw [he] at this
        cases this
        cases hp
        exact .nil

theorem coherent_aligned {O : Objs ω F} {d : Ds ω F} (h : Coherent O d) : ∀ m, d.matrix = some m → m.length = d.objects.length :=
  fun m hm => (h.2 m hm).length_eq.symm

/-- A selection in a coherent dataset is coherent. -/
theorem C47_getitem {O : Objs ω F} {d e : Ds ω F} {key : Key} (h : Coherent O d) (hcache : Cached d)
    (hl : ∀ l, d.labels = some l → l.length = d.objects.length) (he : d.getitem key = .ok (.ds e)) : Coherent O e ∧ Cached e := by
  have ha : Aligned d := ⟨coherent_aligned h, hl⟩
  by_cases hne : d.objects = []
  · rw [C45_empty_violated d hne] at he; simp at he
  have hn : d.objects.length ≠ 0 := fun h => hne (List.length_eq_zero_iff.1 h)
  have hfin : ∀ {idx}, Selects d e idx → e.common = d.common → e.matrix.isSome = d.matrix.isSome → Coherent O e ∧ Cached e := by
    intro idx hs hc hm
    refine ⟨coherent_of_selects h hs.1 hs.2.1 hc (fun h => by rw [h] at hm; simpa using hm) hcache, fun hx => ?_⟩
    rw [hm] at hx
    rw [hc]
    rcases hcache hx with h' | h'
    · exact .inl h'
    · exact absurd h' hne
  have hempty : Coherent O d.emptyLike ∧ Cached d.emptyLike :=
    ⟨C47_init O _ rfl rfl, fun h => by simp [Ds.emptyLike] at h⟩
  have hbool : ∀ {bs : List Bool}, bs.length = d.objects.length → e = d.pickBools bs → Coherent O e ∧ Cached e := by
    rintro bs hbs rfl
    exact hfin (pickBools_selects ha hbs) rfl (by simp [Ds.pickBools])
  cases key with
  | int i =>
    unfold Ds.getitem at he
    rw [if_neg hn] at he
    dsimp only at he
    cases hg : Py.get d.objects i <;> rw [hg] at he <;> simp [Except.map] at he
  | slice a b s =>
    by_cases h0 : s.getD 1 = 0
    · unfold Ds.getitem at he
      rw [if_neg hn] at he
      simp [Ds.pickSlice, sliceOf, sliceIdx, h0, bind, Except.bind, Except.map] at he
    · obtain ⟨e', idx, h1, h2, h3, -⟩ := slice_picks ha hne (start := a) (stop := b) h0
      rw [h1] at he
      simp only [Except.ok.injEq, Item.ds.injEq] at he
      subst he
      refine hfin h2 h3 ?_
      cases hm : d.matrix with
      | some m => obtain ⟨m', hm', -⟩ := h2.2.1 m hm; simp [hm']
      | none =>
        unfold Ds.getitem at h1
        rw [if_neg hn] at h1
        simp only [Ds.pickSlice, hm] at h1
        obtain ⟨idx', hidx, -, -⟩ := sliceIdx_spec (n := d.objects.length) (start := a) (stop := b) h0
        rw [sliceOf_eq rfl hidx] at h1
        cases hlab : d.labels with
        | none =>
          simp [hlab, bind, Except.bind, Except.map] at h1
          rw [← h1]
        | some l =>
          simp [hlab, sliceOf_eq (ha.2 l hlab) hidx, bind, Except.bind, Except.map] at h1
          rw [← h1]
  | bools l =>
    cases l with
    | nil =>
      unfold Ds.getitem at he
      rw [if_neg hn] at he
      simp only [Except.ok.injEq, Item.ds.injEq] at he
      subst he
      exact hempty
    | cons b l =>
      unfold Ds.getitem at he
      rw [if_neg hn] at he
      dsimp only at he
      split at he
      · rename_i hlen
        simp only [Except.ok.injEq, Item.ds.injEq] at he
        exact hbool hlen he.symm
      · simp at he
  | ints l =>
    cases l with
    | nil =>
      unfold Ds.getitem at he
      rw [if_neg hn] at he
      simp only [Except.ok.injEq, Item.ds.injEq] at he
      subst he
      exact hempty
    | cons i l =>
      unfold Ds.getitem at he
      rw [if_neg hn] at he
      dsimp only at he
      cases hb : toBoolList d.objects.length (i :: l) with
      | error x => rw [hb] at he; simp [Except.map] at he
      | ok r =>
        rw [hb] at he
        simp only [Except.map, Except.ok.injEq, Item.ds.injEq] at he
        have := (toBoolList_spec d.objects.length (i :: l) (List.replicate d.objects.length false) (by simp)).1 r hb
        exact hbool this.1 he.symm

/-! ### Sum -/

/-- The sum of two coherent datasets is coherent if, when the attributes of the second are among those of the first, the
attributes of the first are features of the objects of the second, and both have the same attributes in the same order when both
matrices are cached.  Missing for the full property: the other cases (`C47_sum_violated`, `C47_rows_violated`). -/
theorem C47_sum_partial {O : Objs ω F} {d e s : Ds ω F} (hd : Coherent O d) (he : Coherent O e)
    (h1 : (∀ a ∈ (e.commonAttributes O).2, a ∈ (d.commonAttributes O).2) → AllFeatures O (d.commonAttributes O).2 e.objects)
    (h2 : d.matrix.isSome → e.matrix.isSome → (d.commonAttributes O).2 = (e.commonAttributes O).2)
    (h : d.add O e = .ok s) : s.objects = d.objects ++ e.objects ∧ Coherent O s := by
  unfold Ds.add at h
  split at h
  · simp at h
  · dsimp only at h
    split at h
    · rename_i hsub
      simp only [Except.ok.injEq] at h
      subst h
      have hsub' : ∀ a ∈ (e.commonAttributes O).2, a ∈ (d.commonAttributes O).2 := by simpa using hsub
      refine ⟨rfl, ?_⟩
      show AllFeatures O (d.commonAttributes O).2 (d.objects ++ e.objects) ∧ ∀ m, (match d.matrix, e.matrix with
        | some m, some m' => some (m ++ m')
        | _, _ => none) = some m → RowsOf O (d.commonAttributes O).2 (d.objects ++ e.objects) m
      refine ⟨fun a ha o ho => ?_, fun m hm => ?_⟩
      · rcases List.mem_append.1 ho with ho | ho
        · exact hd.1 a ha o ho
        · exact h1 hsub' a ha o ho
      · cases hdm : d.matrix with
        | none => rw [hdm] at hm; simp at hm
        | some m1 =>
          cases hem : e.matrix with
          | none => rw [hdm, hem] at hm; simp at hm
          | some m2 =>
            rw [hdm, hem] at hm
            simp only [Option.some.injEq] at hm
            subst hm
            refine List.rel_append (hd.2 m1 hdm) ?_
            have := he.2 m2 hem
            rw [← h2 (by simp [hdm]) (by simp [hem])] at this
            exact this
    · simp only [Except.ok.injEq] at h
      subst h
      exact ⟨rfl, C47_init O _ rfl rfl⟩

/-- Objects 0, 1 of class 0 with features a, b; objects 2, 3 of class 1 with the feature a; objects 4, 5 of class 2 with the
features b, a. -/
def demo : Objs Nat Nat where
  cls o := o / 2
  features c := if c = 0 then ["a", "b"] else if c = 1 then ["a"] else ["b", "a"]
  vector o := if o / 2 = 0 then [o, 10 + o] else if o / 2 = 1 then [o] else [10 + o, o]
  attr o a := if a = "a" then some o else if a = "b" ∧ o / 2 ≠ 1 then some (10 + o) else none
  aligned := by
    intro o
    generalize o / 2 = c
    by_cases h0 : c = 0
    · rw [if_pos h0, if_pos h0]; rfl
    · rw [if_neg h0, if_neg h0]
      by_cases h1 : c = 1
      · rw [if_pos h1, if_pos h1]; rfl
      · rw [if_neg h1, if_neg h1]; rfl

/-- The sum of a dataset and of a dataset having less common attributes claims an attribute which is not a feature of all
objects, and its matrix cannot be read. -/
theorem C47_sum_violated : ∃ s : Ds Nat Nat, (Ds.init [0, 1] "d").add demo (Ds.init [2, 3] "e") = .ok s ∧
    "b" ∈ (s.commonAttributes demo).2 ∧ 2 ∈ s.objects ∧ "b" ∉ demo.features (demo.cls 2) ∧
    (s.getMatrix demo).map (·.2) = .error .valueError := by
  refine ⟨_, rfl, by decide, by decide, by decide, rfl⟩

/-- The sum of two datasets whose matrices are cached and whose common attributes come in different orders mixes up the
columns. -/
theorem C47_rows_violated : ∃ (d e s : Ds Nat Nat) (m : List (List Nat)), (Ds.init [0] "d").getMatrix demo = .ok (d, [[0, 10]]) ∧
    (Ds.init [4] "e").getMatrix demo = .ok (e, [[14, 4]]) ∧ d.add demo e = .ok s ∧ (s.commonAttributes demo).2 = ["a", "b"] ∧
    s.matrix = some m ∧ m = [[0, 10], [14, 4]] ∧ ¬ RowsOf demo ["a", "b"] [0, 4] m := by
  refine ⟨⟨[0], "d", some ["a", "b"], some [[0, 10]], none⟩, ⟨[4], "e", some ["b", "a"], some [[14, 4]], none⟩,
    ⟨[0, 4], "d_+_e", some ["a", "b"], some [[0, 10], [14, 4]], none⟩, _, rfl, rfl, rfl, rfl, rfl, rfl, ?_⟩
  intro h
  obtain ⟨-, h⟩ := forall2_get.1 h
  have := h 1 4 [14, 4] rfl rfl
  obtain ⟨-, h⟩ := forall2_get.1 this
  obtain ⟨i, h1, h2, -⟩ := h 0 "a" 14 rfl rfl
  match i, h1, h2 with
  | 0, h1, _ => simp [demo] at h1
  | 1, _, h2 => simp [demo] at h2

example : ∃ s : Ds Nat Nat, (Ds.init [0] "d").add demo (Ds.init [4] "e") = .ok s ∧ Coherent demo s := by
  refine ⟨_, rfl, (C47_sum_partial (d := Ds.init [0] "d") (e := Ds.init [4] "e") (C47_init demo _ rfl rfl) (C47_init demo _ rfl rfl)
    (fun _ a ha o ho => ?_) (fun h => by simp [Ds.init] at h) rfl).2⟩
  have h1 : a ∈ ["a", "b"] := ha
  have h2 : o ∈ [4] := ho
  simp only [List.mem_singleton] at h2
  subst h2
  simp only [List.mem_cons, List.not_mem_nil, or_false] at h1
  rcases h1 with rfl | rfl <;> decide

/-! ### Sort -/

theorem picks_of_perm {α : Type} {idx : List Nat} {l : List α} (h : ∀ i ∈ idx, i < l.length) : ∃ r, Picks idx l r :=
  ⟨_, picks_filterMap h⟩

theorem mapM_picks {α : Type} {idx : List Nat} {l r : List α} : (idx.mapM fun i : Nat => Py.get l i) = .ok r ↔ Picks idx l r := by
  rw [Py.mapM_ok]
  unfold Picks
  constructor <;> intro h <;> refine h.imp fun i x hx => ?_
  · rw [Py.get_nat] at hx
    cases hl : l[i]? with
    | none => rw [hl] at hx; simp at hx
    | some y => rw [hl] at hx; simpa using hx
  · rw [Py.get_nat, hx]

theorem picks_perm {α : Type} {idx : List Nat} {l r : List α} (h : Picks idx l r) (hp : idx.Perm (List.range l.length)) : r.Perm l := by
  have hr : r = idx.filterMap (l[·]?) := by
    have h2 := picks_filterMap (l := l) (idx := idx) fun i hi => by simpa using hp.mem_iff.1 hi
    refine picks_ext h fun k => ?_
    have hlen : ∀ k : Nat, (idx.filterMap (l[·]?))[k]? = idx[k]?.bind (l[·]?) := by
      intro k
      obtain ⟨g1, g2⟩ := forall2_get.1 h2
      cases hk : idx[k]? with
      | none =>
        rw [List.getElem?_eq_none_iff] at hk
        rw [Option.bind_none, List.getElem?_eq_none_iff]
        omega
      | some i =>
        have hlt : k < (idx.filterMap (l[·]?)).length := by
          rw [← g1]
          exact (List.getElem?_eq_some_iff.1 hk).1
        rw [Option.bind_some, List.getElem?_eq_getElem hlt]
        exact (g2 k i _ hk (List.getElem?_eq_getElem hlt)).symm
    exact hlen k
  have hl : (List.range l.length).filterMap (l[·]?) = l := by
    have h2 := picks_filterMap (l := l) (idx := List.range l.length) fun i hi => by simpa using hi
    refine picks_ext h2 fun k => ?_
    by_cases hk : k < l.length
    · rw [List.getElem?_range hk]; simp
    · rw [List.getElem?_eq_none (by omega), List.getElem?_eq_none (by simp; omega)]; simp
  rw [hr]
  exact (hp.filterMap _).trans (by rw [hl])

/-- The values a dataset is sorted by: those of the column of the index among the common attributes, or those of the
attribute, object by object. -/
def SortedBy (O : Objs ω F) (d : Ds ω F) : SortKey → List F → Prop
  | .index i, vs => ∃ k a, Py.idx (d.commonAttributes O).2.length i = some k ∧ (d.commonAttributes O).2[k]? = some a ∧
      List.Forall₂ (fun o v => ValueOf O o a v) d.objects vs
  | .attr a, vs => List.Forall₂ (fun o v => O.attr o a = some v ∨ ValueOf O o a v) d.objects vs

theorem columnValues_spec {O : Objs ω F} {d e : Ds ω F} {i : Int} {vs : List F} (h : Coherent O d) (hne : d.objects ≠ [])
    (hv : d.columnValues O i = .ok (e, vs)) :
    (∃ k a, Py.idx (d.commonAttributes O).2.length i = some k ∧ (d.commonAttributes O).2[k]? = some a ∧
      List.Forall₂ (fun o v => ValueOf O o a v) d.objects vs) ∧
    Coherent O e ∧ e.objects = d.objects ∧ e.labels = d.labels ∧ e.matrix.isSome ∧
      (e.commonAttributes O).2 = (d.commonAttributes O).2 ∧ (Cached d → Cached e) := by
  obtain ⟨e', m, h1, h2, h3, h4, h5, h6, h7⟩ := C47_matrix h
  unfold Ds.columnValues at hv
  rw [h1] at hv
  simp only [bind, Except.bind] at hv
  split at hv
  · simp at hv
  rename_i col hcol
  simp only [Except.ok.injEq, Prod.mk.injEq] at hv
  obtain ⟨rfl, rfl⟩ := hv
  refine ⟨?_, h3, h5, h6, by rw [h4]; rfl, h7⟩
  rw [Py.mapM_ok] at hcol
  obtain ⟨g1, g2⟩ := forall2_get.1 h2
  obtain ⟨f1, f2⟩ := forall2_get.1 hcol
  obtain ⟨o, l, hl⟩ := List.exists_cons_of_ne_nil hne
  have hrowlen : ∀ (j : Nat) (row : List F), m[j]? = some row → row.length = (d.commonAttributes O).2.length := by
    intro j row hrow
    have hlt : j < d.objects.length := by rw [g1]; exact (List.getElem?_eq_some_iff.1 hrow).1
    exact ((g2 j _ row (List.getElem?_eq_getElem hlt) hrow).length_eq).symm
  obtain ⟨k, hk⟩ : ∃ k, Py.idx (d.commonAttributes O).2.length i = some k := by
    have h0 : 0 < m.length := by rw [← g1, hl]; simp
    have h0' : 0 < col.length := by rw [← f1]; exact h0
    have := f2 0 _ _ (List.getElem?_eq_getElem h0) (List.getElem?_eq_getElem h0')
    obtain ⟨k, hk, -⟩ := Py.get_ok.1 this
    rw [hrowlen 0 _ (List.getElem?_eq_getElem h0)] at hk
    exact ⟨k, hk⟩
  have hklt := Py.idx_lt hk
  refine ⟨k, (d.commonAttributes O).2[k], hk, List.getElem?_eq_getElem hklt, forall2_get.2 ⟨by omega, fun j x y hx hy => ?_⟩⟩
  have hlt : j < m.length := by rw [← g1]; exact (List.getElem?_eq_some_iff.1 hx).1
  have hrow := List.getElem?_eq_getElem hlt
  have := f2 j _ y hrow hy
  obtain ⟨k', hk', hv⟩ := Py.get_ok.1 this
  rw [hrowlen j _ hrow, hk] at hk'
  simp only [Option.some.injEq] at hk'
  subst hk'
  exact (forall2_get.1 (g2 j x _ hx hrow)).2 k _ y (List.getElem?_eq_getElem hklt) hv

theorem getattr_ok {O : Objs ω F} {o : ω} {a : String} {v : F} : getattr O o a = .ok v ↔ O.attr o a = some v := by
  unfold getattr
  cases O.attr o a <;> simp

theorem attributeValues_spec {O : Objs ω F} {d e : Ds ω F} {a : String} {vs : List F} (h : Coherent O d)
    (hv : d.attributeValues O a = .ok (e, vs)) :
    List.Forall₂ (fun o v => O.attr o a = some v ∨ ValueOf O o a v) d.objects vs ∧
    Coherent O e ∧ e.objects = d.objects ∧ e.labels = d.labels ∧ (Cached d → Cached e) := by
  unfold Ds.attributeValues at hv
  split at hv
  · simp at hv
  · rename_i o l hl
    split at hv
    · dsimp only at hv
      split at hv
      · simp at hv
      · rename_i k hk
        obtain ⟨g1, -, g3⟩ := commonAttributes_fields O d
        obtain ⟨⟨k', a', f1, f2, f3⟩, f4, f5, f6, -, -, f7⟩ := columnValues_spec (C47_read h) (by rw [g1, hl]; simp) hv
        rw [commonAttributes_idem] at f1 f2
        rw [g1] at f3 f5
        rw [g3] at f6
        rw [List.findIdx?_eq_some_iff_getElem] at hk
        obtain ⟨hlt, hka, -⟩ := hk
        rw [Py.idx_nat, if_pos hlt] at f1
        simp only [Option.some.injEq] at f1
        subst f1
        rw [List.getElem?_eq_getElem hlt] at f2
        simp only [beq_iff_eq] at hka
        simp only [Option.some.injEq] at f2
        rw [← f2, hka] at f3
        exact ⟨f3.imp fun o v hv => .inr hv, f4, f5, f6, fun hc => f7 (cached_read hc)⟩
    · cases hm : (d.objects.mapM fun o => getattr O o a) with
      | error x => rw [hm] at hv; simp [Except.map] at hv
      | ok r =>
        rw [hm] at hv
        simp only [Except.map, Except.ok.injEq, Prod.mk.injEq] at hv
        obtain ⟨rfl, rfl⟩ := hv
        exact ⟨(Py.mapM_ok.1 hm).imp fun o v hv => .inl (getattr_ok.1 hv), h, rfl, rfl, id⟩

theorem sortValues_spec {O : Objs ω F} {d e : Ds ω F} {key : SortKey} {vs : List F} (h : Coherent O d) (hne : d.objects ≠ [])
    (hv : d.sortValues O key = .ok (e, vs)) : SortedBy O d key vs ∧ Coherent O e ∧ e.objects = d.objects ∧ e.labels = d.labels ∧
      (Cached d → Cached e) := by
  cases key with
  | index i =>
    obtain ⟨h1, h2, h3, h4, -, -, h5⟩ := columnValues_spec h hne hv
    exact ⟨h1, h2, h3, h4, h5⟩
  | attr a => exact attributeValues_spec h hv

theorem sortedBy_length {O : Objs ω F} {d : Ds ω F} {key : SortKey} {vs : List F} (h : SortedBy O d key vs) : vs.length = d.objects.length := by
  cases key with
  | index i => obtain ⟨_, _, _, _, h⟩ := h; exact h.length_eq.symm
  | attr a => exact h.length_eq.symm

theorem picks_reverse {α : Type} {idx : List Nat} {l r : List α} (h : Picks idx.reverse l r) : Picks idx l r.reverse := by
  unfold Picks at h ⊢
  have := List.rel_reverse h
  simpa using this

/-- Sorting a coherent dataset whose values can be read: the objects are permuted, so that their values are in increasing or
decreasing order, the rows of the matrix follow them, and the dataset stays coherent. -/
theorem C46_sort [LinearOrder F] {O : Objs ω F} {argsort : List F → List Nat} (hargsort : IsArgsort argsort) {d r : Ds ω F} {key : SortKey}
    {vs : List F} {ascend : Bool} (h : Coherent O d) (hc : Cached d) (hv : d.sortValues O key = .ok (r, vs)) (hne : d.objects ≠ []) :
    SortedBy O d key vs ∧ ∃ (e : Ds ω F) (positions : List Nat) (vs' : List F), d.sort O argsort key ascend = .ok e ∧
      positions.Perm (List.range d.objects.length) ∧ Picks positions d.objects e.objects ∧ e.objects.Perm d.objects ∧
      Picks positions vs vs' ∧ vs'.Pairwise (fun x y => if ascend then x ≤ y else y ≤ x) ∧
      (∀ m, r.matrix = some m → ∃ m', e.matrix = some m' ∧ Picks positions m m') ∧ Coherent O e ∧ Cached e ∧ e.labels = d.labels := by
  obtain ⟨h1, h2, h3, h4, h5⟩ := sortValues_spec h hne hv
  refine ⟨h1, ?_⟩
  have hlen := sortedBy_length h1
  obtain ⟨hp, hsorted⟩ := hargsort vs
  have hn : d.objects.length ≠ 0 := fun h => hne (List.length_eq_zero_iff.1 h)
  rw [hlen] at hp
  let idx := if ascend then argsort vs else (argsort vs).reverse
  have hperm : idx.Perm (List.range d.objects.length) := by
    show (if ascend then argsort vs else (argsort vs).reverse).Perm _
    cases ascend with
    | true => exact hp
    | false => exact (List.reverse_perm _).trans hp
  have hlt : ∀ i ∈ idx, i < d.objects.length := fun i hi => by simpa using hperm.mem_iff.1 hi
  obtain ⟨vs', hvs'⟩ := picks_of_perm (l := vs) (idx := idx) fun i hi => by rw [hlen]; exact hlt i hi
  obtain ⟨objs, hobjs⟩ := picks_of_perm (l := d.objects) (idx := idx) hlt
  have hpw : vs'.Pairwise (fun x y => if ascend then x ≤ y else y ≤ x) := by
    have : Picks (if ascend then argsort vs else (argsort vs).reverse) vs vs' := hvs'
    cases ascend with
    | true => simpa using hsorted vs' this
    | false =>
      have := hsorted _ (picks_reverse this)
      rw [List.pairwise_reverse] at this
      simpa using this
  have hmlen := coherent_aligned h2
  rw [h3] at hmlen
  unfold Ds.sort
  rw [if_pos hn, hv]
  simp only [bind, Except.bind]
  have hgo : (idx.mapM fun i : Nat => Py.get r.objects i) = .ok objs := by rw [h3]; exact mapM_picks.2 hobjs
  have hgo' : ((if ascend then argsort vs else (argsort vs).reverse).mapM fun i : Nat => Py.get r.objects i) = .ok objs := hgo
  rw [hgo']
  dsimp only
  cases hm : r.matrix with
  | some m =>
    obtain ⟨m', hm'⟩ := picks_of_perm (l := m) (idx := idx) fun i hi => by rw [hmlen m hm]; exact hlt i hi
    have hgm : ((if ascend then argsort vs else (argsort vs).reverse).mapM fun i : Nat => Py.get m i) = .ok m' := mapM_picks.2 hm'
    dsimp only
    rw [hgm]
    dsimp only
    refine ⟨_, idx, vs', rfl, hperm, hobjs, picks_perm hobjs hperm, hvs', hpw, ?_, ?_, ?_, h4⟩
    · intro m0 hm0
      simp only [Option.some.injEq] at hm0
      exact ⟨m', rfl, hm0 ▸ hm'⟩
    · refine coherent_of_selects (idx := idx) h2 (by rw [h3]; exact hobjs) ?_ rfl ?_ (h5 hc)
      · intro m0 hm0
        rw [hm] at hm0
        simp only [Option.some.injEq] at hm0
        exact ⟨m', rfl, hm0 ▸ hm'⟩
      · intro hx; rw [hm] at hx; simp at hx
    · intro _
      rcases h5 hc (by rw [hm]; rfl) with hx | hx
      · exact .inl hx
      · rw [h3] at hx; exact absurd hx hne
  | none =>
    refine ⟨_, idx, vs', rfl, hperm, hobjs, picks_perm hobjs hperm, hvs', hpw, ?_, ?_, ?_, h4⟩
    · intro m0 hm0; simp at hm0
    · refine coherent_of_selects (idx := idx) h2 (by rw [h3]; exact hobjs) ?_ rfl ?_ (h5 hc)
      · intro m0 hm0; rw [hm] at hm0; simp at hm0
      · intro _; rfl
    · intro hx; simp at hx

/-- There are functions doing what numpy guarantees. -/
theorem exists_argsort : ∃ argsort : List Nat → List Nat, IsArgsort argsort := by
  refine ⟨fun vs => sortBy (fun i j => decide (vs.getD i 0 ≤ vs.getD j 0)) (List.range vs.length), fun vs => ⟨sortBy_perm _ _, fun vs' h => ?_⟩⟩
  have hs := sortBy_pairwise (le := fun i j : Nat => decide (vs.getD i 0 ≤ vs.getD j 0))
    (fun a b c h1 h2 => by simp only [decide_eq_true_eq] at *; omega) (fun a b => by simp only [decide_eq_true_eq]; omega) (List.range vs.length)
  dsimp only at h
  generalize sortBy (fun i j : Nat => decide (vs.getD i 0 ≤ vs.getD j 0)) (List.range vs.length) = idx at h hs
  have hpair : vs' = idx.map fun i => vs.getD i 0 := by
    clear hs
    unfold Picks at h
    induction h with
    | nil => rfl
    | cons hi _ ih => rw [List.map_cons, ← ih]; simp [hi]
  rw [hpair, List.pairwise_map]
  exact hs.imp fun h => by simpa using h

/-- Sorting an empty dataset does nothing. -/
theorem C46_empty {O : Objs ω F} {argsort : List F → List Nat} {d : Ds ω F} {key : SortKey} {ascend : Bool} (h : d.objects = []) :
    d.sort O argsort key ascend = .ok d := by
  unfold Ds.sort
  rw [if_neg (by simp [h])]

/-- Sorting by a name which the first object has not and which is no common attribute raises a ValueError. -/
theorem C46_unreadable {O : Objs ω F} {d : Ds ω F} {a : String} (argsort : List F → List Nat) (asc : Bool) {o : ω} (ho : d.objects.head? = some o)
    (hn : O.attr o a = none) (hc : a ∉ (d.commonAttributes O).2) : d.sort O argsort (.attr a) asc = .error .valueError := by
  obtain ⟨l, hl⟩ : ∃ l, d.objects = o :: l := by
    cases h : d.objects with
    | nil => simp [h] at ho
    | cons x l => simp [h] at ho; exact ⟨l, by rw [ho]⟩
  have hv : d.sortValues O (.attr a) = .error .valueError := by
    have hf : (d.commonAttributes O).2.findIdx? (· == a) = none := by
      rw [List.findIdx?_eq_none_iff]
      intro x hx
      simp only [beq_eq_false_iff_ne, ne_eq]
      rintro rfl
      exact hc hx
    simp [Ds.sortValues, Ds.attributeValues, hl, hn, hf]
  simp [Ds.sort, hl, hv, bind, Except.bind]

example : (Ds.init [2, 0] "d" : Ds Nat Nat).sort demo (fun _ => [0, 1]) (.attr "b") true = .error .valueError :=
  C46_unreadable _ _ (o := 2) rfl rfl (by decide)

/-- Sorting by an attribute which the first object has and another has not raises an AttributeError. -/
theorem C46_lacking {O : Objs ω F} {d : Ds ω F} {a : String} (argsort : List F → List Nat) (asc : Bool) {o : ω} (ho : d.objects.head? = some o)
    (hs : (O.attr o a).isSome) {x : ω} (hx : x ∈ d.objects) (hn : O.attr x a = none) : d.sort O argsort (.attr a) asc = .error .attributeError := by
  obtain ⟨l, hl⟩ : ∃ l, d.objects = o :: l := by
    cases h : d.objects with
    | nil => simp [h] at ho
    | cons x l => simp [h] at ho; exact ⟨l, by rw [ho]⟩
  obtain ⟨v, hv⟩ := Option.isSome_iff_exists.1 hs
  have key : ∀ os : List ω, x ∈ os → (os.mapM fun o => getattr O o a) = .error .attributeError := by
    intro os
    induction os with
    | nil => simp
    | cons y os ih =>
      intro hm
      rw [List.mapM_cons]
      cases hy : O.attr y a with
      | none => simp [getattr, hy, bind, Except.bind]
      | some w =>
        have hxo : x ∈ os := by
          rcases List.mem_cons.1 hm with rfl | h
          · rw [hn] at hy; simp at hy
          · exact h
        have hw : getattr O y a = .ok w := by simp [getattr, hy]
        rw [hw, ih hxo]
        rfl
  have hval : d.sortValues O (.attr a) = .error .attributeError := by
    have := key d.objects hx
    simp only [Ds.sortValues, Ds.attributeValues]
    rw [hl] at this ⊢
    simp only [hv, this, Except.map]
  simp [Ds.sort, hl, hval, bind, Except.bind]

example : (Ds.init [0, 2] "d" : Ds Nat Nat).sort demo (fun _ => [0, 1]) (.attr "b") true = .error .attributeError :=
  C46_lacking _ _ (o := 0) rfl rfl (x := 2) (by simp [Ds.init]) rfl

/-- The values of a key can be read if it is an index among the common attributes, or a common attribute which the first object
has only as a feature, or an attribute all objects have. -/
theorem C46_readable {O : Objs ω F} {d : Ds ω F} (h : Coherent O d) (hne : d.objects ≠ []) {key : SortKey}
    (hk : match key with
      | .index i => ∃ k, Py.idx (d.commonAttributes O).2.length i = some k
      | .attr a => (∀ o ∈ d.objects, (O.attr o a).isSome) ∨ a ∈ (d.commonAttributes O).2 ∧ ∀ o, d.objects.head? = some o → O.attr o a = none) :
    ∃ r vs, d.sortValues O key = .ok (r, vs) := by
  have hcol : ∀ {d : Ds ω F} {i : Int}, Coherent O d → (∃ k, Py.idx (d.commonAttributes O).2.length i = some k) →
      ∃ r vs, d.columnValues O i = .ok (r, vs) := by
    intro d i h ⟨k, hk⟩
    obtain ⟨e, m, h1, h2, -⟩ := C47_matrix h
    obtain ⟨vs, hvs⟩ := mapM_exists (f := fun row => Py.get row i) (l := m) fun row hrow => by
      obtain ⟨o, -, ho⟩ := Py.forall2_right h2 hrow
      have hl := ho.length_eq
      have hlt := Py.idx_lt hk
      exact ⟨row[k]'(by omega), Py.get_ok.2 ⟨k, by rw [← hl]; exact hk, List.getElem?_eq_getElem _⟩⟩
    exact ⟨e, vs, by simp [Ds.columnValues, h1, hvs, bind, Except.bind]⟩
  cases key with
  | index i => exact hcol h hk
  | attr a =>
    obtain ⟨o, l, hl⟩ := List.exists_cons_of_ne_nil hne
    show ∃ r vs, d.attributeValues O a = .ok (r, vs)
    unfold Ds.attributeValues
    rw [hl]
    dsimp only
    rcases hk with hk | ⟨hk1, hk2⟩
    · obtain ⟨v, hv⟩ := Option.isSome_iff_exists.1 (hk o (by rw [hl]; exact .head _))
      rw [hv]
      dsimp only
      obtain ⟨vs, hvs⟩ := mapM_exists (f := fun o => getattr O o a) (l := o :: l) fun x hx => by
        obtain ⟨v, hv⟩ := Option.isSome_iff_exists.1 (hk x (by rw [hl]; exact hx))
        exact ⟨v, getattr_ok.2 hv⟩
      rw [hvs]
      exact ⟨d, vs, rfl⟩
    · rw [hk2 o (by rw [hl]; rfl)]
      dsimp only
      cases hf : (d.commonAttributes O).2.findIdx? (· == a) with
      | none =>
        rw [List.findIdx?_eq_none_iff] at hf
        have := hf a hk1
        simp at this
      | some i =>
        rw [List.findIdx?_eq_some_iff_getElem] at hf
        obtain ⟨hlt, -⟩ := hf
        exact hcol (C47_read h) ⟨i, by rw [commonAttributes_idem, Py.idx_nat, if_pos hlt]⟩

example : ∃ r vs, (Ds.init [1, 0, 4] "d" : Ds Nat Nat).sortValues demo (.index 1) = .ok (r, vs) :=
  C46_readable (C47_init demo _ rfl rfl) (by simp [Ds.init]) (key := .index 1) ⟨1, by decide⟩

/-! ### C88: sorting and labels -/

/-- Sorting leaves the labels where they are: objects keep their label when all labels are the same.  Missing for the full
property: the other labels (`C88_violated`). -/
theorem C88_partial [LinearOrder F] {O : Objs ω F} {argsort : List F → List Nat} (hargsort : IsArgsort argsort) {d e : Ds ω F} {key : SortKey}
    {ascend : Bool} (h : Coherent O d) (hc : Cached d) {labels : List Int} (hl : d.labels = some labels)
    (hll : labels.length = d.objects.length) {c : Int} (hsame : ∀ x ∈ labels, x = c) (he : d.sort O argsort key ascend = .ok e) :
    ∃ labels', e.labels = some labels' ∧ labels'.length = e.objects.length ∧ (e.objects.zip labels').Perm (d.objects.zip labels) := by
  by_cases hne : d.objects = []
  · rw [C46_empty hne] at he
    simp only [Except.ok.injEq] at he
    subst he
    exact ⟨labels, hl, hll, .refl _⟩
  · have hn : d.objects.length ≠ 0 := fun h => hne (List.length_eq_zero_iff.1 h)
    cases hv : d.sortValues O key with
    | error x =>
      unfold Ds.sort at he
      rw [if_pos hn, hv] at he
      simp [bind, Except.bind] at he
    | ok rv =>
      obtain ⟨-, e', idx, vs', h1, -, -, h2, -, -, -, -, -, h3⟩ := C46_sort hargsort (ascend := ascend) h hc (r := rv.1) (vs := rv.2) hv hne
      rw [h1] at he
      simp only [Except.ok.injEq] at he
      subst he
      have hrep : labels = List.replicate d.objects.length c := by
        rw [← hll]
        exact List.eq_replicate_of_mem hsame
      refine ⟨labels, h3.trans hl, by rw [hll, h2.length_eq], ?_⟩
      have hz : ∀ l : List ω, l.zip (List.replicate l.length c) = l.map fun o => (o, c) := by
        intro l
        induction l with
        | nil => rfl
        | cons x l ih => simp [List.replicate_succ, ih]
      rw [hrep]
      nth_rewrite 1 [← h2.length_eq]
      rw [hz, hz]
      exact h2.map _

example : ∃ (argsort : List Nat → List Nat) (e : Ds Nat Nat), IsArgsort argsort ∧
    (Ds.initC [1, 0] (some [7, 7]) "c").sort demo argsort (.attr "a") true = .ok e := by
  obtain ⟨argsort, h⟩ := exists_argsort
  obtain ⟨e, he⟩ : ∃ e, (Ds.initC [1, 0] (some [7, 7]) "c" : Ds Nat Nat).sort demo argsort (.attr "a") true = .ok e := by
    obtain ⟨-, e, -, -, he, -⟩ := C46_sort h (ascend := true) (O := demo) (d := Ds.initC [1, 0] (some [7, 7]) "c") (key := .attr "a")
      (C47_init demo _ rfl rfl) (fun h => by simp [Ds.initC] at h) (r := _) (vs := _) rfl (by simp [Ds.initC])
    exact ⟨e, he⟩
  exact ⟨argsort, e, h, he⟩

/-- Sorting a clustered dataset gives the labels of the objects to others. -/
theorem C88_violated : ∃ e : Ds Nat Nat, (Ds.initC [1, 0] (some [7, 8]) "c").sort demo (fun _ => [1, 0]) (.attr "a") true = .ok e ∧
    e.objects = [0, 1] ∧ e.labels = some [7, 8] := ⟨_, rfl, rfl, rfl⟩

/-! ### C96: sub-matrix -/

theorem column_get {α : Type} {cols : List (List α)} {n j : Nat} (h : ∀ c ∈ cols, c.length = n) (hj : j < n) (i : Nat) :
    (column cols j)[i]? = cols[i]?.bind (·[j]?) := by
  unfold column
  induction cols generalizing i with
  | nil => simp
  | cons c cols ih =>
    have hc := h c (.head _)
    have hjc : j < c.length := by omega
    rw [List.filterMap_cons, List.getElem?_eq_getElem hjc]
    cases i with
    | zero => simp [List.getElem?_eq_getElem (show j < c.length by omega)]
    | succ i => simpa using ih (fun c hc => h c (.tail _ hc)) i

/-- The sub-matrix of a coherent dataset has a row per object, holding its values of the requested attributes in the requested
order. -/
theorem C96_rows {O : Objs ω F} {d : Ds ω F} (h : Coherent O d) {names : List String} (hn : names ≠ []) {rows : List (List F)}
    (hr : d.subMatrix O names = .ok rows) :
    List.Forall₂ (fun o row => List.Forall₂ (fun a v => O.attr o a = some v ∨ ValueOf O o a v) names row) d.objects rows := by
  unfold Ds.subMatrix at hr
  cases hc : (names.mapM fun a => (d.attributeValues O a).map (·.2)) with
  | error x => rw [hc] at hr; simp [bind, Except.bind] at hr
  | ok cols =>
    rw [hc] at hr
    simp only [bind, Except.bind, Except.ok.injEq] at hr
    subst hr
    rw [Py.mapM_ok] at hc
    have hcols : List.Forall₂ (fun a col => List.Forall₂ (fun o v => O.attr o a = some v ∨ ValueOf O o a v) d.objects col) names cols := by
      refine hc.imp fun a col hcol => ?_
      cases ha : d.attributeValues O a with
      | error x => rw [ha] at hcol; simp [Except.map] at hcol
      | ok ev =>
        rw [ha] at hcol
        simp only [Except.map, Except.ok.injEq] at hcol
        subst hcol
        exact (attributeValues_spec h ha).1
    have hlen : ∀ c ∈ cols, c.length = d.objects.length := by
      intro c hc
      obtain ⟨a, -, ha⟩ := Py.forall2_right hcols hc
      exact ha.length_eq.symm
    obtain ⟨g1, g2⟩ := forall2_get.1 hcols
    have htr : transpose cols = (List.range d.objects.length).map (column cols) := by
      cases cols with
      | nil => exact absurd (List.length_eq_zero_iff.1 g1) hn
      | cons c cols => simp [transpose, hlen c (.head _)]
    rw [htr]
    refine forall2_get.2 ⟨by simp, fun j o row ho hrow => ?_⟩
    have hj : j < d.objects.length := (List.getElem?_eq_some_iff.1 ho).1
    rw [List.getElem?_map, List.getElem?_range hj] at hrow
    simp only [Option.map_some, Option.some.injEq] at hrow
    subst hrow
    have hget := column_get hlen hj
    refine forall2_get.2 ⟨?_, fun i a v ha hv => ?_⟩
    · rw [g1]
      have : ∀ cs : List (List F), (∀ c ∈ cs, c.length = d.objects.length) → (column cs j).length = cs.length := by
        intro cs
        induction cs with
        | nil => intro _; rfl
        | cons c cs ih =>
          intro hl
          unfold column at ih ⊢
          have hc := hl c (.head _)
          rw [List.filterMap_cons, List.getElem?_eq_getElem (by omega)]
          simp [ih fun c hc => hl c (.tail _ hc)]
      exact (this cols hlen).symm
    · rw [hget] at hv
      cases hci : cols[i]? with
      | none => rw [hci] at hv; simp at hv
      | some col =>
        rw [hci] at hv
        exact (forall2_get.1 (g2 i a col ha hci)).2 j o v ho hv

/-- Without any requested attribute, no row is returned, whatever the number of objects. -/
theorem C96_empty {O : Objs ω F} (d : Ds ω F) : d.subMatrix O [] = .ok [] := rfl

example : (Ds.init [0, 4] "d").subMatrix demo ["b", "a"] = .ok [[10, 0], [14, 4]] := rfl
example : ∃ vs r, (Ds.init [1, 0, 4] "d").sortValues demo (.index 1) = .ok (r, vs) ∧ vs = [11, 10, 14] ∧
    Coherent demo (Ds.init [1, 0, 4] "d") ∧ Cached (Ds.init [1, 0, 4] "d" : Ds Nat Nat) :=
  ⟨_, _, rfl, rfl, C47_init demo _ rfl rfl, fun h => by simp [Ds.init] at h⟩

end DC.Data
