import Verif.Views.Lemmas
/- Property C135: the displays of an object are those of its decorated methods. -/
namespace DC.View

open DC.Txt (Display displayFromSelector)

/-- Specification: the type of the displays of a decorator, and whether their data is serialized. -/
def shape : Kind → String × Bool
  | .picture => ("picture", true)
  | .plotData => ("plot_data", true)
  | .markdown => ("markdown", false)
  | .cad => ("babylon_data", true)

/-- Specification: the display asked by a decorator of a kind on a method: under its selector, or the name of the method. -/
def viewOf (k : Kind) (f : Fn) : Option Display :=
  f.decos.findSome? fun
    | .view k' s l => if k' = k then some ⟨some (s.getD f.name), (shape k).1, f.name, [], (shape k).2, l⟩ else none
    | _ => none

/-- Specification: the displays asked by the methods of a class. -/
def views (C : Class) : List Display :=
  [Kind.plotData, .markdown, .cad].flatMap fun k => (ordered C).filterMap (viewOf k)

/-- Specification: whether a class has a method with the decorator of markdowns. -/
def HasMarkdown (C : Class) : Prop := ∃ m ∈ C, ∃ s l, Deco.view .markdown s l ∈ m.fn.decos

/-! ### Lemmas -/

theorem mem_nm_view {C : Class} (h : Usual C) {m : Member} (hm : m ∈ C) (k : Kind) :
    k.name ∈ m.fn.decos.map Deco.nm ↔ ∃ s l, Deco.view k s l ∈ m.fn.decos := by
  rw [List.mem_map]
  constructor
  · rintro ⟨d, hd, e⟩
    rcases d with ⟨k', s, l⟩ | ⟨k', s⟩ | n
    · have : k' = k := by cases k <;> cases k' <;> first | rfl | (exact absurd e (by simp [Deco.nm, Deco.name, Kind.name]))
      exact ⟨s, l, this ▸ hd⟩
    · cases k <;> cases k' <;> exact absurd e (by simp [Deco.nm, Deco.name, ExpKind.name, Kind.name])
    · obtain ⟨s, rfl, hs⟩ := h.read m hm _ hd
      refine absurd ?_ hs
      rw [show s = k.name from e]
      cases k <;> decide
  · rintro ⟨s, l, hd⟩
    exact ⟨_, hd, rfl⟩

theorem viewOf_some {f : Fn} {k : Kind} (h1 : (f.decos.filter Deco.known).length ≤ 1) {s : Option String} {l : Bool}
    (hd : Deco.view k s l ∈ f.decos) :
    viewOf k f = some ⟨some (s.getD f.name), (shape k).1, f.name, [], (shape k).2, l⟩ := by
  unfold viewOf
  match hv : f.decos.findSome? _ with
  | none =>
    rw [List.findSome?_eq_none_iff] at hv
    exact absurd (hv _ hd) (by simp)
  | some d =>
    obtain ⟨x, hx, e⟩ := List.exists_of_findSome?_eq_some hv
    rcases x with ⟨k', s', l'⟩ | _ | _
    · cases known_unique h1 hd hx rfl rfl
      simp only [if_true] at e
      rw [← e]
    · cases e
    · cases e

theorem viewOf_none {f : Fn} {k : Kind} (h : ¬ ∃ s l, Deco.view k s l ∈ f.decos) : viewOf k f = none := by
  unfold viewOf
  rw [List.findSome?_eq_none_iff]
  rintro (⟨k', s, l⟩ | _ | _) hd
  · exact if_neg (by rintro rfl; exact h ⟨s, l, hd⟩)
  · rfl
  · rfl

theorem settingOf_view {f : Fn} {k : Kind} (h1 : (f.decos.filter Deco.known).length ≤ 1) {s : Option String} {l : Bool}
    (hd : Deco.view k s l ∈ f.decos) :
    settingOf f = ⟨some (s.getD f.name), (shape k).1, f.name, [], (shape k).2, l⟩ := by
  unfold settingOf
  rw [attrs_known h1 hd rfl]
  cases s <;> cases k <;> rfl

theorem map_settings {C : Class} (h : Usual C) (k : Kind) (fs : List Fn) (hf : ∀ f ∈ fs, ∃ m ∈ C, m.fn = f) :
    (fs.filter fun f => decide (k.name ∈ f.decos.map Deco.nm)).map settingOf = fs.filterMap (viewOf k) := by
  induction fs with
  | nil => rfl
  | cons f fs ih =>
    have ih := ih fun f h => hf f (by simp [h])
    obtain ⟨m, hm, rfl⟩ := hf f (by simp)
    rw [List.filter_cons, List.filterMap_cons]
    by_cases hk : k.name ∈ m.fn.decos.map Deco.nm
    · obtain ⟨s, l, hd⟩ := (mem_nm_view h hm k).1 hk
      simp only [hk, decide_true, if_true, List.map_cons, ih, settingOf_view (h.single m hm) hd, viewOf_some (h.single m hm) hd]
    · simp only [hk, decide_false, Bool.false_eq_true, if_false, ih, viewOf_none ((mem_nm_view h hm k).not.1 hk)]

theorem viewSettings_ok {C : Class} (h : Usual C) : viewSettings C displayDecorators = .ok (views C) := by
  have e : displayDecorators = [Kind.plotData.name, Kind.markdown.name, Kind.cad.name] := rfl
  simp only [e, viewSettings, decoratedMethods_ok h, map_settings h _ _ fun f hf => (mem_ordered C f).1 hf, views,
    List.flatMap_cons, List.flatMap_nil]

theorem mem_views {C : Class} (h : Usual C) (d : Display) : d ∈ views C ↔
    ∃ m ∈ C, ∃ k s l, k ≠ Kind.picture ∧ Deco.view k s l ∈ m.fn.decos ∧
      d = ⟨some (s.getD m.fn.name), (shape k).1, m.fn.name, [], (shape k).2, l⟩ := by
  simp only [views, List.mem_flatMap, List.mem_filterMap]
  constructor
  · rintro ⟨k, hk, f, hf, e⟩
    obtain ⟨m, hm, rfl⟩ := (mem_ordered C f).1 hf
    by_cases hv : ∃ s l, Deco.view k s l ∈ m.fn.decos
    · obtain ⟨s, l, hd⟩ := hv
      rw [viewOf_some (h.single m hm) hd] at e
      cases e
      exact ⟨m, hm, k, s, l, by rintro rfl; simp at hk, hd, rfl⟩
    · rw [viewOf_none hv] at e
      cases e
  · rintro ⟨m, hm, k, s, l, hk, hd, rfl⟩
    refine ⟨k, ?_, m.fn, (mem_ordered C _).2 ⟨m, hm, rfl⟩, viewOf_some (h.single m hm) hd⟩
    cases k <;> simp at hk ⊢

theorem any_markdown {C : Class} (h : Usual C) : ((views C).any fun d => d.type == "markdown") = true ↔ HasMarkdown C := by
  rw [List.any_eq_true]
  constructor
  · rintro ⟨d, hd, e⟩
    obtain ⟨m, hm, k, s, l, -, hv, rfl⟩ := (mem_views h d).1 hd
    refine ⟨m, hm, s, l, ?_⟩
    cases k
    · exact absurd e (by simp [shape])
    · exact absurd e (by simp [shape])
    · exact hv
    · exact absurd e (by simp [shape])
  · rintro ⟨m, hm, s, l, hv⟩
    exact ⟨_, (mem_views h _).2 ⟨m, hm, .markdown, s, l, by simp, hv, rfl⟩, by simp [shape]⟩

/-! ### The settings -/

/-- **C135** (settings): a class written as usual has, in this order: a markdown of `to_markdown` if no method is decorated as a markdown,
one display for each method decorated as a plot, then as a markdown, then as a CAD view, the functions before the class methods and by
names, each one under the selector of the decorator or the name of the method, and a structure tree. -/
theorem C135_settings (C : Class) (h : Usual C) : ∃ L, displaySettings C = .ok L ∧
    (HasMarkdown C → L = views C ++ [⟨some "Structure Tree", "tree", "", [], false, false⟩]) ∧
    (¬ HasMarkdown C → L = ⟨some "Markdown", "markdown", "to_markdown", [], false, true⟩ :: views C ++
      [⟨some "Structure Tree", "tree", "", [], false, false⟩]) := by
  simp only [displaySettings, viewSettings_ok h]
  refine ⟨_, rfl, fun hm => ?_, fun hm => ?_⟩
  · rw [if_pos ((any_markdown h).2 hm)]
    rfl
  · rw [if_neg ((any_markdown h).not.2 hm)]
    rfl

/-- The displays of a class written as usual are those of its decorated methods and the two of every object. -/
theorem mem_settings {C : Class} (h : Usual C) {L : List Display} (hL : displaySettings C = .ok L) (d : Display) :
    d ∈ L ↔ (d = ⟨some "Markdown", "markdown", "to_markdown", [], false, true⟩ ∧ ¬ HasMarkdown C) ∨ d ∈ views C ∨
      d = ⟨some "Structure Tree", "tree", "", [], false, false⟩ := by
  obtain ⟨L', e, h1, h2⟩ := C135_settings C h
  rw [hL] at e
  cases e
  by_cases hm : HasMarkdown C
  · rw [h1 hm]
    simp [hm]
  · rw [h2 hm]
    simp [hm]

/-! ### What is displayed -/

variable {δ : Type}

/-- Specification: what a display shows of the result of a method.  A failure of the method is told by a traceback without data; data is
serialized if asked, and markdowns which are not empty are cleaned. -/
inductive Shows (D : Data δ) (o : Obj δ) (method : String) (k : Kind) : Except PyErr (Shown δ) → Prop
  | failed (e : PyErr) : o.call method = .error e → Shows D o method k (.ok ⟨(shape k).1, none, "#", true⟩)
  | nothing : o.call method = .ok none → Shows D o method k (.ok ⟨(shape k).1, none, "#", false⟩)
  | data (d d' : δ) : k ≠ .markdown → o.call method = .ok (some d) → D.ser d = .ok d' →
      Shows D o method k (.ok ⟨(shape k).1, some d', "#", false⟩)
  | unserialized (d : δ) (e : PyErr) : k ≠ .markdown → o.call method = .ok (some d) → D.ser d = .error e → Shows D o method k (.error e)
  | empty (d : δ) : k = .markdown → o.call method = .ok (some d) → D.truthy d = false →
      Shows D o method k (.ok ⟨"markdown", some d, "#", false⟩)
  | markdown (d d' : δ) : k = .markdown → o.call method = .ok (some d) → D.truthy d = true → D.clean d = .ok d' →
      Shows D o method k (.ok ⟨"markdown", some d', "#", false⟩)
  | uncleaned (d : δ) (e : PyErr) : k = .markdown → o.call method = .ok (some d) → D.truthy d = true → D.clean d = .error e →
      Shows D o method k (.error e)

theorem showSetting_shows (D : Data δ) (o : Obj δ) (k : Kind) (sel : Option String) (n : String) (l : Bool) (hn : n ≠ "") :
    Shows D o n k (showSetting D o ⟨sel, (shape k).1, n, [], (shape k).2, l⟩) := by
  have hp : Display.referencePath ⟨sel, (shape k).1, n, [], (shape k).2, l⟩ = "#" := rfl
  simp only [showSetting, Obj.get, if_neg hn, hp]
  match hc : o.call n with
  | .error e => exact .failed e hc
  | .ok none => exact .nothing hc
  | .ok (some d) =>
    by_cases hk : k = .markdown
    · subst hk
      simp only [serialized, shape, Bool.false_eq_true, if_false, mkShown]
      cases ht : D.truthy d
      · exact .empty d rfl hc ht
      · simp only [Bool.true_and, beq_self_eq_true, if_true]
        match hl : D.clean d with
        | .error e => exact .uncleaned d e rfl hc ht hl
        | .ok d' => exact .markdown d d' rfl hc ht hl
    · have h1 : (shape k).2 = true := by cases k <;> first | rfl | exact absurd rfl hk
      have h2 : ((shape k).1 == "markdown") = false := by cases k <;> first | rfl | exact absurd rfl hk
      simp only [serialized, h1, if_true]
      match hs : D.ser d with
      | .error e => exact .unserialized d e hk hc hs
      | .ok d' =>
        simp only [mkShown, h2, Bool.and_false, Bool.false_eq_true, if_false]
        exact .data d d' hk hc hs

theorem find_unique {L : List Display} (hn : (L.map (·.selector)).Nodup) {s : Display} (hs : s ∈ L) :
    displayFromSelector L s.selector = .ok s := by
  have : L.find? (fun d => d.selector == s.selector) = some s := by
    induction L with
    | nil => simp at hs
    | cons x L ih =>
      rw [List.map_cons, List.nodup_cons] at hn
      rw [List.find?_cons]
      rcases List.mem_cons.1 hs with rfl | hs
      · simp
      · have : (x.selector == s.selector) = false := by
          rw [beq_eq_false_iff_ne]
          exact fun e => hn.1 (e ▸ List.mem_map_of_mem (f := (·.selector)) hs)
        rw [this]
        exact ih hn.2 hs
  simp only [displayFromSelector, this]

/-- **C135** (result): asking the display of a decorated method, of a class written as usual in which no two displays have the same
selector, shows the result of this method.  Missing: the settings of classes not written as usual, and displays with the same selector. -/
theorem C135_partial (D : Data δ) (o : Obj δ) (h : Usual o.cls) (L : List Display) (hL : displaySettings o.cls = .ok L)
    (hn : (L.map (·.selector)).Nodup) (m : Member) (hm : m ∈ o.cls) (k : Kind) (s : Option String) (l : Bool)
    (hk : k ≠ .picture) (hd : Deco.view k s l ∈ m.fn.decos) (he : m.fn.name ≠ "") :
    Shows D o m.fn.name k (displayOf D o (some (s.getD m.fn.name))) := by
  have hs := (mem_settings h hL ⟨some (s.getD m.fn.name), (shape k).1, m.fn.name, [], (shape k).2, l⟩).2
    (.inr (.inl ((mem_views h _).2 ⟨m, hm, k, s, l, hk, hd, rfl⟩)))
  have := find_unique hn hs
  simp only [displayOf, hL, this]
  exact showSetting_shows D o k _ _ l he

theorem displaysLoop_forall (D : Data δ) (o : Obj δ) (ss : List Display) (rs : List (Shown δ)) :
    displaysLoop D o ss = .ok rs ↔ List.Forall₂ (fun s r => displayOf D o s.selector = .ok r) ss rs := by
  induction ss generalizing rs with
  | nil => simp [displaysLoop, eq_comm]
  | cons s ss ih =>
    simp only [displaysLoop]
    constructor
    · intro h
      match hd : displayOf D o s.selector, hr : displaysLoop D o ss, h with
      | .ok d, .ok ds, h =>
        cases h
        exact .cons hd ((ih _).1 hr)
    · rintro (_ | ⟨hd, ht⟩)
      rw [hd, (ih _).2 ht]

/-- **C135** (all): the list of the displays of an object holds one display for each setting, in order, each being what asking its selector
gives; none is given if one of them raises. -/
theorem C135_all (D : Data δ) (o : Obj δ) (L : List Display) (hL : displaySettings o.cls = .ok L) (rs : List (Shown δ)) :
    displays D o = .ok rs ↔ List.Forall₂ (fun s r => displayOf D o s.selector = .ok r) L rs := by
  simp only [displays, hL, displaysLoop_forall]

/-- **C135** (no selector): asking a selector that no display has is an error. -/
theorem C135_unknown (D : Data δ) (o : Obj δ) (L : List Display) (hL : displaySettings o.cls = .ok L) (s : Option String)
    (hs : ∀ d ∈ L, d.selector ≠ s) : displayOf D o s = .error .valueError := by
  have : L.find? (fun d => d.selector == s) = none := by
    rw [List.find?_eq_none]
    intro d hd
    simpa using hs d hd
  simp only [displayOf, hL, displayFromSelector, this]

/-! ### What fails -/

/-- **C135** (pictures) is violated: no display calls a method decorated as a picture, whatever the class written as usual. -/
theorem C135_picture_violated (C : Class) (h : Usual C) (L : List Display) (hL : displaySettings C = .ok L) (m : Member) (hm : m ∈ C)
    (s : Option String) (l : Bool) (hd : Deco.view .picture s l ∈ m.fn.decos) (he : m.fn.name ≠ "") (ht : m.fn.name ≠ "to_markdown") :
    ∀ d ∈ L, d.method ≠ m.fn.name := by
  intro d hdL e
  rcases (mem_settings h hL d).1 hdL with ⟨rfl, -⟩ | hv | rfl
  · exact ht e.symm
  · obtain ⟨m', hm', k, s', l', hk, hd', rfl⟩ := (mem_views h d).1 hv
    have : m' = m := by
      have hn : m'.attr = m.attr := by rw [h.names m' hm', h.names m hm]; exact e
      exact mem_unique h.nodup hm' hm hn
    subst this
    cases known_unique (h.single m' hm') hd hd' rfl rfl
    exact hk rfl
  · exact he e.symm

/-- **C135** (tree) is violated: the display of the structure tree of every object is a traceback without data, unless an other display
takes its selector. -/
theorem C135_tree_violated (D : Data δ) (o : Obj δ) (h : Usual o.cls) (hs : ∀ d ∈ views o.cls, d.selector ≠ some "Structure Tree") :
    displayOf D o (some "Structure Tree") = .ok ⟨"tree", none, "#", true⟩ := by
  obtain ⟨L, hL, h1, h2⟩ := C135_settings o.cls h
  have hf : displayFromSelector L (some "Structure Tree") = .ok ⟨some "Structure Tree", "tree", "", [], false, false⟩ := by
    have hv : (views o.cls).find? (fun d => d.selector == some "Structure Tree") = none := by
      rw [List.find?_eq_none]
      intro d hd
      simpa using hs d hd
    by_cases hm : HasMarkdown o.cls
    · simp [displayFromSelector, h1 hm, List.find?_append, hv]
    · rw [h2 hm]
      simp only [displayFromSelector, List.cons_append, List.find?_cons, List.find?_append, hv]
      rfl
  simp only [displayOf, hL, hf]
  rfl

/-- A class with a plot, a class method decorated as a markdown, and a method without decorators. -/
def sampleClass : Class :=
  [⟨"doc", ⟨"doc", [.other (some "classmethod"), .view .markdown (some "Doc") true], true⟩, true⟩,
   ⟨"graph", ⟨"graph", [.view .plotData none false], true⟩, false⟩,
   ⟨"volume", ⟨"volume", [], true⟩, false⟩]

theorem sampleClass_usual : Usual sampleClass := by
  constructor
  · decide
  · decide
  · intro m hm _
    simp only [sampleClass, List.mem_cons, List.not_mem_nil, or_false] at hm
    rcases hm with rfl | rfl | rfl <;> rfl
  · intro m hm n hn
    simp only [sampleClass, List.mem_cons, List.not_mem_nil, or_false] at hm
    rcases hm with rfl | rfl | rfl
    · simp at hn
      exact ⟨_, hn, by decide⟩
    · simp at hn
    · simp at hn
  · decide

/-- An object of that class: its plot fails. -/
def sampleObj : Obj String := ⟨sampleClass, fun n => if n = "doc" then .ok (some "  text") else .error .valueError, fun _ => .error .valueError⟩

/-- Data whose cleaning puts a mark. -/
def sampleData : Data String := ⟨fun d => .ok ("ser " ++ d), fun d => d != "", fun d => .ok ("clean " ++ d)⟩

/-- The settings of the sample. -/
def sampleSettings : List Display :=
  [⟨some "graph", "plot_data", "graph", [], true, false⟩, ⟨some "Doc", "markdown", "doc", [], false, true⟩,
   ⟨some "Structure Tree", "tree", "", [], false, false⟩]

theorem sample_settings : displaySettings sampleClass = .ok sampleSettings := by rfl

example : Shows sampleData sampleObj "doc" .markdown (displayOf sampleData sampleObj (some "Doc")) :=
  C135_partial sampleData sampleObj sampleClass_usual sampleSettings sample_settings (by decide) _
    (List.mem_cons_self ..) .markdown (some "Doc") true (by decide) (by simp) (by decide)

example : displays sampleData sampleObj = .ok [⟨"plot_data", none, "#", true⟩, ⟨"markdown", some "clean   text", "#", false⟩,
    ⟨"tree", none, "#", true⟩] :=
  (C135_all sampleData sampleObj sampleSettings sample_settings _).2 (.cons (by rfl) (.cons (by rfl) (.cons (by rfl) .nil)))

example : displayOf sampleData sampleObj (some "volume") = .error .valueError :=
  C135_unknown _ _ sampleSettings sample_settings _ (by decide)

example : HasMarkdown sampleClass := ⟨_, List.mem_cons_self .., some "Doc", true, by simp⟩

/-- A class with one method, decorated as given. -/
def oneMethod (n : String) (ds : List Deco) : Class := [⟨n, ⟨n, ds, true⟩, false⟩]

theorem oneMethod_usual (n : String) (k : Kind) (s : Option String) (l : Bool) : Usual (oneMethod n [.view k s l]) := by
  constructor <;> simp [oneMethod, Deco.known, List.filter_cons]

/-- The hypotheses of the theorem on pictures are met, and the settings are those of an object without views. -/
example : ∃ L, displaySettings (oneMethod "photo" [.view .picture (some "Photo") true]) = .ok L ∧ L.map (·.method) = ["to_markdown", ""] ∧
    ∀ d ∈ L, d.method ≠ "photo" :=
  ⟨_, rfl, rfl, C135_picture_violated _ (oneMethod_usual "photo" .picture (some "Photo") true) _ rfl _ (List.mem_cons_self ..) (some "Photo") true (by simp)
    (by decide) (by decide)⟩

example : displayOf sampleData sampleObj (some "Structure Tree") = .ok ⟨"tree", none, "#", true⟩ :=
  C135_tree_violated _ _ sampleClass_usual (by decide)

/-- Two plots with the same selector. -/
def sameSelector : Class :=
  [⟨"first", ⟨"first", [.view .plotData (some "Plot") false], true⟩, false⟩,
   ⟨"second", ⟨"second", [.view .plotData (some "Plot") false], true⟩, false⟩]

/-- **C135** (result) is violated by displays with the same selector: the first one is displayed twice, and the second one never,
whatever the second method returns. -/
theorem C135_violated (D : Data δ) (call : String → Except PyErr (Option δ)) (write : String → Except PyErr Content) (d1 : δ)
    (h1 : call "first" = .ok (some d1)) (h3 : call "to_markdown" = .ok none)
    (e1 : D.ser d1 = .ok d1) :
    displays D ⟨sameSelector, call, write⟩ = .ok [⟨"markdown", none, "#", false⟩, ⟨"plot_data", some d1, "#", false⟩,
      ⟨"plot_data", some d1, "#", false⟩, ⟨"tree", none, "#", true⟩] := by
  have hd : displaySettings sameSelector = .ok [⟨some "Markdown", "markdown", "to_markdown", [], false, true⟩,
      ⟨some "Plot", "plot_data", "first", [], true, false⟩, ⟨some "Plot", "plot_data", "second", [], true, false⟩,
      ⟨some "Structure Tree", "tree", "", [], false, false⟩] := by rfl
  have f : displayOf D ⟨sameSelector, call, write⟩ (some "Plot") = .ok ⟨"plot_data", some d1, "#", false⟩ := by
    have : displayFromSelector [⟨some "Markdown", "markdown", "to_markdown", [], false, true⟩,
      ⟨some "Plot", "plot_data", "first", [], true, false⟩, ⟨some "Plot", "plot_data", "second", [], true, false⟩,
      ⟨some "Structure Tree", "tree", "", [], false, false⟩] (some "Plot") = .ok ⟨some "Plot", "plot_data", "first", [], true, false⟩ := rfl
    have hp : Display.referencePath ⟨some "Plot", "plot_data", "first", [], true, false⟩ = "#" := rfl
    have hx : (D.truthy d1 && ("plot_data" == "markdown")) = false := by simp
    simp only [displayOf, hd, this, showSetting, Obj.get, if_neg (show "first" ≠ "" by decide), h1, serialized, if_true, e1, mkShown,
      hp, hx, Bool.false_eq_true, if_false]
  have g : displayOf D ⟨sameSelector, call, write⟩ (some "Markdown") = .ok ⟨"markdown", none, "#", false⟩ := by
    have : displayFromSelector [⟨some "Markdown", "markdown", "to_markdown", [], false, true⟩,
      ⟨some "Plot", "plot_data", "first", [], true, false⟩, ⟨some "Plot", "plot_data", "second", [], true, false⟩,
      ⟨some "Structure Tree", "tree", "", [], false, false⟩] (some "Markdown") =
      .ok ⟨some "Markdown", "markdown", "to_markdown", [], false, true⟩ := rfl
    have hp : Display.referencePath ⟨some "Markdown", "markdown", "to_markdown", [], false, true⟩ = "#" := rfl
    simp only [displayOf, hd, this, showSetting, Obj.get, if_neg (show "to_markdown" ≠ "" by decide), h3, serialized, mkShown, hp]
  rw [C135_all D _ _ hd]
  exact .cons g (.cons f (.cons f (.cons (by rfl) .nil)))

example : displays sampleData ⟨sameSelector, fun n => .ok (if n = "first" then some "" else if n = "second" then some "2" else none),
    fun _ => .error .valueError⟩ = .ok [⟨"markdown", none, "#", false⟩, ⟨"plot_data", some "ser ", "#", false⟩,
      ⟨"plot_data", some "ser ", "#", false⟩, ⟨"tree", none, "#", true⟩] := by rfl

/-- **C135** (settings) is violated by a method with two decorators: a method decorated as a plot and as a CAD view has two displays, with
the same selector and the type of the outer decorator. -/
theorem C135_twice_violated : displaySettings (oneMethod "both" [.view .plotData (some "Plot") false, .view .cad (some "Cad") true]) =
    .ok [⟨some "Markdown", "markdown", "to_markdown", [], false, true⟩, ⟨some "Plot", "plot_data", "both", [], true, false⟩,
      ⟨some "Plot", "plot_data", "both", [], true, false⟩, ⟨some "Structure Tree", "tree", "", [], false, false⟩] := by rfl

/-- **C135** (settings) is violated by decorators which are not names: one such decorator on one method leaves the class without displays. -/
theorem C135_read_violated (C : Class) (m : Member) (hm : m ∈ C) (hb : m.fn.plain = true) (hd : Deco.other none ∈ m.fn.decos) :
    displaySettings C = .error .attributeError := by
  have h1 : ∀ ds : List Deco, Deco.other none ∈ ds → decoNames ds = .error .attributeError := by
    intro ds
    induction ds with
    | nil => simp
    | cons d ds ih =>
      intro h
      rcases List.mem_cons.1 h with rfl | h1
      · rfl
      · rcases d with _ | _ | (_ | n) <;> simp [decoNames, Deco.name, ih h1]
  have h0 : ∀ ds : List Deco, (∃ ns, decoNames ds = .ok ns) ∨ decoNames ds = .error .attributeError := by
    intro ds
    induction ds with
    | nil => exact .inl ⟨[], rfl⟩
    | cons d ds ih =>
      rcases d with _ | _ | (_ | n)
      · rcases ih with ⟨ns, e⟩ | e <;> simp [decoNames, Deco.name, e]
      · rcases ih with ⟨ns, e⟩ | e <;> simp [decoNames, Deco.name, e]
      · exact .inr rfl
      · rcases ih with ⟨ns, e⟩ | e <;> simp [decoNames, Deco.name, e]
  have h2 : ∀ (n : String) (fs : List Fn), m.fn ∈ fs → methodNames n fs = .error .attributeError := by
    intro n fs
    induction fs with
    | nil => simp
    | cons f fs ih =>
      intro h
      rcases List.mem_cons.1 h with rfl | h
      · simp only [methodNames, h1 _ hd]
      · rcases h0 f.decos with ⟨ns, e⟩ | e
        · simp only [methodNames, e, ih h]
        · simp only [methodNames, e]
  have h3 : m.fn ∈ allDecorated C := by
    unfold allDecorated
    refine List.mem_filter.2 ⟨(mem_ordered C m.fn).2 ⟨m, hm, rfl⟩, ?_⟩
    have : m.fn.decos ≠ [] := fun e => by rw [e] at hd; simp at hd
    simp [hb, this]
  have h4 : viewSettings C displayDecorators = .error .attributeError := by
    show viewSettings C ("plot_data_view" :: _) = _
    simp only [viewSettings, decoratedMethods, h2 _ _ h3]
  simp only [displaySettings, h4]

example : displaySettings (oneMethod "f" [.other none] ++ sampleClass) = .error .attributeError :=
  C135_read_violated _ ⟨"f", ⟨"f", [.other none], true⟩, false⟩ (by simp [oneMethod]) rfl (by simp)

end DC.View
