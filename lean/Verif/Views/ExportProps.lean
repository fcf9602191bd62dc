import Verif.Views.DisplayProps
/- Property C136: the exports of an object call its decorated methods, under their selectors. -/
namespace DC.View

/-- Specification: the extension and the kind of stream declared by a decorator of exports (true for a text). -/
def declared : ExpKind → String × Bool
  | .any e t => (e, t)
  | .step => ("step", true)
  | .stl => ("stl", false)
  | .html => ("html", true)
  | .docx => ("docx", true)
  | .xlsx => ("xlsx", false)

/-- Specification: the order of the decorators of exports. -/
def ExpKind.group : ExpKind → Nat
  | .any _ _ => 0
  | .step => 1
  | .stl => 2
  | .html => 3
  | .docx => 4
  | .xlsx => 5

/-- Specification: the format asked by a decorator on a method: under its selector, or its extension if the selector is empty. -/
def exportOf (g : Nat) (f : Fn) : Option Format :=
  f.decos.findSome? fun
    | .exp k s => if k.group = g then some ⟨if s = "" then (declared k).1 else s, (declared k).1, f.name, (declared k).2⟩ else none
    | _ => none

/-- Specification: the formats asked by the methods of a class. -/
def exports (C : Class) : List Format := [0, 1, 2, 3, 4, 5].flatMap fun g => (ordered C).filterMap (exportOf g)

/-- Specification: the formats of every object before those of its methods, and after. -/
def before : List Format :=
  [⟨"json", "json", "save_to_stream", true⟩, ⟨"xlsx", "xlsx", "to_xlsx_stream", false⟩, ⟨"docx", "docx", "to_docx_stream", false⟩]

/-- See `before`: an object with CAD has three more. -/
def after (physical : Bool) : List Format :=
  ⟨"zip", "zip", "to_zip_stream", false⟩ :: if physical then
    [⟨"step", "step", "to_step_stream", true⟩, ⟨"stl", "stl", "to_stl_stream", false⟩, ⟨"html", "html", "to_html_stream", true⟩] else []

/-! ### Lemmas -/

theorem exp_name_iff (k : ExpKind) (g : Nat) (hg : g < 6) : k.name = exportDecorators[g]'hg ↔ k.group = g := by
  match g, hg with
  | 0, _ | 1, _ | 2, _ | 3, _ | 4, _ | 5, _ => cases k <;> simp [ExpKind.name, ExpKind.group, exportDecorators]

theorem mem_nm_exp {C : Class} (h : Usual C) {m : Member} (hm : m ∈ C) (g : Nat) (hg : g < 6) :
    exportDecorators[g]'hg ∈ m.fn.decos.map Deco.nm ↔ ∃ k s, ExpKind.group k = g ∧ Deco.exp k s ∈ m.fn.decos := by
  rw [List.mem_map]
  constructor
  · rintro ⟨d, hd, e⟩
    rcases d with ⟨k', s, l⟩ | ⟨k', s⟩ | n
    · have : k'.name ∉ exportDecorators := by cases k' <;> decide
      exact absurd (show k'.name ∈ exportDecorators from (show k'.name = _ from e) ▸ List.getElem_mem hg) this
    · exact ⟨k', s, (exp_name_iff k' g hg).1 e, hd⟩
    · obtain ⟨s, rfl, hs⟩ := h.read m hm _ hd
      refine absurd ?_ hs
      rw [show s = _ from e]
      exact List.mem_append_right _ (List.getElem_mem hg)
  · rintro ⟨k, s, hk, hd⟩
    exact ⟨_, hd, (exp_name_iff k g hg).2 hk⟩

theorem exportOf_some {f : Fn} {k : ExpKind} (h1 : (f.decos.filter Deco.known).length ≤ 1) {s : String} (hd : Deco.exp k s ∈ f.decos) :
    exportOf k.group f = some ⟨if s = "" then (declared k).1 else s, (declared k).1, f.name, (declared k).2⟩ := by
  unfold exportOf
  match hv : f.decos.findSome? _ with
  | none =>
    rw [List.findSome?_eq_none_iff] at hv
    exact absurd (hv _ hd) (by simp)
  | some d =>
    obtain ⟨x, hx, e⟩ := List.exists_of_findSome?_eq_some hv
    rcases x with _ | ⟨k', s'⟩ | _
    · cases e
    · cases known_unique h1 hd hx rfl rfl
      simp only [if_true] at e
      rw [← e]
    · cases e

theorem exportOf_none {f : Fn} {g : Nat} (h : ¬ ∃ k s, ExpKind.group k = g ∧ Deco.exp k s ∈ f.decos) : exportOf g f = none := by
  unfold exportOf
  rw [List.findSome?_eq_none_iff]
  rintro (_ | ⟨k, s⟩ | _) hd
  · rfl
  · exact if_neg fun e => h ⟨k, s, e, hd⟩
  · rfl

theorem formatOf_exp {f : Fn} {k : ExpKind} (h1 : (f.decos.filter Deco.known).length ≤ 1) {s : String} (hd : Deco.exp k s ∈ f.decos) :
    formatOf f = .ok ⟨if s = "" then (declared k).1 else s, (declared k).1, f.name, (declared k).2⟩ := by
  unfold formatOf
  rw [attrs_known h1 hd rfl]
  cases k <;> rfl

theorem formatsOf_ok {C : Class} (h : Usual C) (g : Nat) (hg : g < 6) (fs : List Fn) (hf : ∀ f ∈ fs, ∃ m ∈ C, m.fn = f) :
    formatsOf (fs.filter fun f => decide (exportDecorators[g]'hg ∈ f.decos.map Deco.nm)) = .ok (fs.filterMap (exportOf g)) := by
  induction fs with
  | nil => rfl
  | cons f fs ih =>
    have ih := ih fun f h => hf f (by simp [h])
    obtain ⟨m, hm, rfl⟩ := hf f (by simp)
    rw [List.filter_cons, List.filterMap_cons]
    by_cases hk : exportDecorators[g]'hg ∈ m.fn.decos.map Deco.nm
    · obtain ⟨k, s, rfl, hd⟩ := (mem_nm_exp h hm g hg).1 hk
      simp only [hk, decide_true, if_true, formatsOf, ih, formatOf_exp (h.single m hm) hd, exportOf_some (h.single m hm) hd]
    · simp only [hk, decide_false, Bool.false_eq_true, if_false, ih, exportOf_none ((mem_nm_exp h hm g hg).not.1 hk)]

theorem decoratedFormats_ok {C : Class} (h : Usual C) : decoratedFormats C exportDecorators = .ok (exports C) := by
  have f (n : String) (g : Nat) (hg : g < 6) (hn : exportDecorators[g]'hg = n) :
      formatsOf ((ordered C).filter fun f => decide (n ∈ f.decos.map Deco.nm)) = .ok ((ordered C).filterMap (exportOf g)) := by
    subst hn
    exact formatsOf_ok h g hg _ fun f hf => (mem_ordered C f).1 hf
  simp only [exportDecorators, decoratedFormats, decoratedMethods_ok h]
  rw [f "export_decorator" 0 (by decide) rfl, f "export_step" 1 (by decide) rfl, f "export_stl" 2 (by decide) rfl, f "export_html" 3 (by decide) rfl, f "export_docx" 4 (by decide) rfl,
    f "export_xlsx" 5 (by decide) rfl]
  simp only [exports, List.flatMap_cons, List.flatMap_nil]

/-- The formats of the methods of a class written as usual are those of its decorators. -/
theorem mem_exports {C : Class} (h : Usual C) (f : Format) : f ∈ exports C ↔
    ∃ m ∈ C, ∃ k s, Deco.exp k s ∈ m.fn.decos ∧
      f = ⟨if s = "" then (declared k).1 else s, (declared k).1, m.fn.name, (declared k).2⟩ := by
  simp only [exports, List.mem_flatMap, List.mem_filterMap]
  constructor
  · rintro ⟨g, hg, f, hf, e⟩
    obtain ⟨m, hm, rfl⟩ := (mem_ordered C f).1 hf
    by_cases hv : ∃ k s, ExpKind.group k = g ∧ Deco.exp k s ∈ m.fn.decos
    · obtain ⟨k, s, rfl, hd⟩ := hv
      rw [exportOf_some (h.single m hm) hd] at e
      cases e
      exact ⟨m, hm, k, s, hd, rfl⟩
    · rw [exportOf_none hv] at e
      cases e
  · rintro ⟨m, hm, k, s, hd, rfl⟩
    exact ⟨k.group, by cases k <;> simp [ExpKind.group], m.fn, (mem_ordered C _).2 ⟨m, hm, rfl⟩, exportOf_some (h.single m hm) hd⟩

/-! ### The formats -/

/-- **C136** (formats): a class written as usual has the formats json, xlsx and docx, then one for each decorated method, in the order of the
decorators then of the methods, then zip, then those of CAD if it has some. -/
theorem C136_formats (C : Class) (h : Usual C) (physical : Bool) :
    exportFormats C physical = .ok (before ++ exports C ++ after physical) := by
  simp only [exportFormats, decoratedFormats_ok h]
  cases physical <;> simp [genericFormats, before, after, zipFormat, formats3d]

/-! ### Exports to files -/

variable {δ : Type}

/-- Specification: a method writes a content in a stream of the kind of its format. -/
def Writes (o : Obj δ) (f : Format) (c : Content) : Prop :=
  o.write f.method = .ok c ∧ (f.text = true ↔ ∃ s, c = .text s)

theorem writeTo_iff (o : Obj δ) (f : Format) (c : Content) : writeTo o f.method f.text = .ok c ↔ Writes o f c := by
  simp only [writeTo, Writes]
  match o.write f.method with
  | .error e => simp
  | .ok (.text s) =>
    cases f.text
    · simp only [Bool.false_eq_true, if_false, reduceCtorEq, false_iff, Except.ok.injEq, not_and]
      rintro rfl
      simp
    · simp only [if_true, Except.ok.injEq, true_iff]
      constructor
      · rintro rfl
        exact ⟨rfl, s, rfl⟩
      · exact fun h => h.1
  | .ok (.bytes s) =>
    cases f.text
    · simp only [Bool.false_eq_true, if_false, Except.ok.injEq, false_iff]
      constructor
      · rintro rfl
        exact ⟨rfl, by simp⟩
      · exact fun h => h.1
    · simp only [if_true, reduceCtorEq, Except.ok.injEq, true_iff, false_iff, not_and]
      rintro rfl
      simp

/-- Specification: the path of a file is the one given, or the one given followed by the extension if it does not have it. -/
def Located (path extension p : String) : Prop :=
  (∃ q : String, p = q ++ "." ++ extension) ∧
    (p = path ∨ (¬ ∃ q : String, path = q ++ "." ++ extension) ∧ p = path ++ "." ++ extension)

theorem suffix_iff (path ext : String) : ('.' :: ext.toList).isSuffixOf path.toList = true ↔ ∃ q : String, path = q ++ "." ++ ext := by
  rw [List.isSuffixOf_iff_suffix]
  constructor
  · rintro ⟨q, hq⟩
    refine ⟨String.ofList q, ?_⟩
    apply String.toList_inj.1
    rw [← hq]
    simp
  · rintro ⟨q, rfl⟩
    exact ⟨q.toList, by simp⟩

theorem exportPath_located (path ext : String) : Located path ext (exportPath path ext) := by
  unfold exportPath
  by_cases h : ('.' :: ext.toList).isSuffixOf path.toList = true
  · rw [if_pos h]
    exact ⟨(suffix_iff path ext).1 h, .inl rfl⟩
  · rw [if_neg h]
    exact ⟨⟨path, rfl⟩, .inr ⟨(suffix_iff path ext).not.1 h, rfl⟩⟩

theorem located_unique {path ext p q : String} (hp : Located path ext p) (hq : Located path ext q) : p = q := by
  rcases hp with ⟨⟨a, ha⟩, rfl | ⟨h1, rfl⟩⟩ <;> rcases hq with ⟨⟨b, hb⟩, rfl | ⟨h2, rfl⟩⟩
  · rfl
  · exact absurd ⟨a, ha⟩ h2
  · exact absurd ⟨b, hb⟩ h1
  · rfl

theorem saveLoop_iff (o : Obj δ) (selector path : String) (L : List Format) (p : String) (c : Content) :
    saveLoop o selector path L = .ok (p, c) ↔ ∃ pre f post, L = pre ++ f :: post ∧ (∀ g ∈ pre, g.selector ≠ selector) ∧
      f.selector = selector ∧ Writes o f c ∧ Located path f.extension p := by
  induction L with
  | nil => simp [saveLoop]
  | cons x L ih =>
    by_cases hx : x.selector = selector
    · simp only [saveLoop, if_pos hx]
      constructor
      · intro h
        match hw : writeTo o x.method x.text, h with
        | .ok c', h =>
          cases h
          exact ⟨[], x, L, rfl, by simp, hx, (writeTo_iff o x _).1 hw, exportPath_located ..⟩
      · rintro ⟨pre, f, post, e, hpre, hf, hw, hl⟩
        cases pre with
        | nil =>
          cases e
          rw [(writeTo_iff o x c).2 hw]
          rw [located_unique hl (exportPath_located ..)]
        | cons y pre =>
          cases e
          exact absurd hx (hpre x (by simp))
    · simp only [saveLoop, if_neg hx, ih]
      constructor
      · rintro ⟨pre, f, post, rfl, hpre, hr⟩
        exact ⟨x :: pre, f, post, rfl, by
          intro g hg
          rcases List.mem_cons.1 hg with rfl | hg
          · exact hx
          · exact hpre g hg, hr⟩
      · rintro ⟨pre, f, post, e, hpre, hf, hr⟩
        cases pre with
        | nil =>
          cases e
          exact absurd hf hx
        | cons y pre =>
          cases e
          exact ⟨pre, f, post, rfl, fun g hg => hpre g (by simp [hg]), hf, hr⟩

/-- **C136** (files): an export under a selector writes, in one file, what the method of the first format with this selector writes, as a text
or as bytes as this format tells, and returns its path: the one given, with the extension of the format. -/
theorem C136_save (o : Obj δ) (physical : Bool) (L : List Format) (hL : exportFormats o.cls physical = .ok L) (selector path p : String)
    (c : Content) : saveExport o physical selector path = .ok (p, c) ↔
      ∃ pre f post, L = pre ++ f :: post ∧ (∀ g ∈ pre, g.selector ≠ selector) ∧ f.selector = selector ∧ Writes o f c ∧
        Located path f.extension p := by
  simp only [saveExport, hL, saveLoop_iff]

/-- **C136** (no selector): an export under a selector no format has is an error. -/
theorem C136_unknown (o : Obj δ) (physical : Bool) (L : List Format) (hL : exportFormats o.cls physical = .ok L) (selector path : String)
    (hs : ∀ f ∈ L, f.selector ≠ selector) : saveExport o physical selector path = .error .valueError := by
  simp only [saveExport, hL]
  clear hL
  induction L with
  | nil => rfl
  | cons f L ih =>
    simp only [saveLoop, if_neg (hs f (by simp))]
    exact ih fun g hg => hs g (by simp [hg])

/-- **C136** (decorated methods): in a class written as usual, exporting under the selector of a decorated method, which no other decorated
method nor any of json, xlsx and docx has, writes what this method writes.  Missing: selectors used twice or taken by those, and methods
that do not write what their decorator tells. -/
theorem C136_partial (o : Obj δ) (physical : Bool) (h : Usual o.cls) (m : Member) (hm : m ∈ o.cls) (k : ExpKind) (s : String)
    (hd : Deco.exp k s ∈ m.fn.decos) (hs : s ≠ "") (h3 : s ∉ ["json", "xlsx", "docx"])
    (hu : ∀ f ∈ exports o.cls, f.selector = s → f.method = m.fn.name) (c : Content) (hc : o.write m.fn.name = .ok c)
    (ht : (declared k).2 = true ↔ ∃ t, c = .text t) (path : String) :
    ∃ p, saveExport o physical s path = .ok (p, c) ∧ Located path (declared k).1 p := by
  have hx : (⟨s, (declared k).1, m.fn.name, (declared k).2⟩ : Format) ∈ exports o.cls :=
    (mem_exports h _).2 ⟨m, hm, k, s, hd, by simp [hs]⟩
  have hsame : ∀ f ∈ exports o.cls, f.selector = s → f = ⟨s, (declared k).1, m.fn.name, (declared k).2⟩ := by
    intro f hf e
    have hn := hu f hf e
    obtain ⟨m', hm', k', s', hd', rfl⟩ := (mem_exports h f).1 hf
    have : m' = m := mem_unique h.nodup hm' hm (by rw [h.names m' hm', h.names m hm]; exact hn)
    subst this
    cases known_unique (h.single m' hm') hd hd' rfl rfl
    simp [hs]
  have : ∃ pre f post, before ++ exports o.cls ++ after physical = pre ++ f :: post ∧ (∀ g ∈ pre, g.selector ≠ s) ∧ f.selector = s ∧
      f = ⟨s, (declared k).1, m.fn.name, (declared k).2⟩ := by
    have hfind : ∃ f, (exports o.cls).find? (fun f => decide (f.selector = s)) = some f := by
      cases hf : (exports o.cls).find? (fun f => decide (f.selector = s)) with
      | some f => exact ⟨f, rfl⟩
      | none =>
        rw [List.find?_eq_none] at hf
        exact absurd (hf _ hx) (by simp)
    obtain ⟨f, hf⟩ := hfind
    obtain ⟨he, pre, post, e, hpre⟩ := List.find?_eq_some_iff_append.1 hf
    have he : f.selector = s := by simpa using he
    refine ⟨before ++ pre, f, post ++ after physical, by rw [e]; simp, ?_, he, hsame f (by rw [e]; simp) he⟩
    intro g hg
    rcases List.mem_append.1 hg with hg | hg
    · rintro rfl
      simp only [before, List.mem_cons, List.not_mem_nil, or_false] at hg
      rcases hg with rfl | rfl | rfl <;> exact h3 (by decide)
    · simpa using hpre g hg
  obtain ⟨pre, f, post, e, hpre, hf, rfl⟩ := this
  exact ⟨_, (C136_save o physical _ (C136_formats _ h physical) s path _ c).2
    ⟨pre, _, post, e, hpre, rfl, ⟨hc, ht⟩, exportPath_located ..⟩, exportPath_located ..⟩

/-! ### Archives -/

theorem zipLoop_iff (o : Obj δ) (L : List Format) (es : List (String × Content)) : zipLoop o L = .ok es ↔
    List.Forall₂ (fun f e => e.1 = "export." ++ f.extension ∧ Writes o f e.2) (L.filter fun f => f.extension ≠ "zip") es := by
  induction L generalizing es with
  | nil => simp [zipLoop, eq_comm]
  | cons f L ih =>
    rw [List.filter_cons]
    by_cases hf : f.extension ≠ "zip"
    · simp only [zipLoop, hf, ne_eq, not_false_eq_true, decide_true, if_true]
      constructor
      · intro h
        match hw : writeTo o f.method f.text, hz : zipLoop o L, h with
        | .ok c, .ok r, h =>
          cases h
          exact .cons ⟨rfl, (writeTo_iff o f c).1 hw⟩ ((ih r).1 hz)
      · rintro (_ | ⟨⟨h1, h2⟩, ht⟩)
        rename_i e es
        rw [(writeTo_iff o f _).2 h2, (ih es).2 ht, ← h1]
    · simp only [zipLoop, if_neg hf, ih]
      simp at hf
      simp [hf]

/-- **C136** (archives): the archive of an object holds, for each of its formats which is not an archive, in order, one entry named after its
extension with what its method writes. -/
theorem C136_zip (o : Obj δ) (physical : Bool) (L : List Format) (hL : exportFormats o.cls physical = .ok L)
    (es : List (String × Content)) : zipSettings o physical = .ok es ↔
      List.Forall₂ (fun f e => e.1 = "export." ++ f.extension ∧ Writes o f e.2) (L.filter fun f => f.extension ≠ "zip") es := by
  simp only [zipSettings, hL, zipLoop_iff]

theorem lookup_unique {es : List (String × Content)} (e : String × Content) (he : e ∈ es) (hu : ∀ x ∈ es, x.1 = e.1 → x = e) :
    es.reverse.lookup e.1 = some e.2 := by
  have he : e ∈ es.reverse := List.mem_reverse.2 he
  have hu : ∀ x ∈ es.reverse, x.1 = e.1 → x = e := fun x hx => hu x (List.mem_reverse.1 hx)
  generalize es.reverse = l at he hu
  induction l with
  | nil => simp at he
  | cons x l ih =>
    rcases x with ⟨a, b⟩
    rw [List.lookup_cons]
    by_cases hx : a = e.1
    · have := hu (a, b) (by simp) hx
      rw [← this]
      simp
    · have : (e.1 == a) = false := by simpa using fun h => hx h.symm
      rw [this]
      rcases List.mem_cons.1 he with rfl | he
      · exact absurd rfl hx
      · exact ih he fun y hy => hu y (by simp [hy])

theorem forall₂_mem_left {α β : Type} {R : α → β → Prop} {l : List α} {l' : List β} (h : List.Forall₂ R l l') {x : α} (hx : x ∈ l) :
    ∃ y ∈ l', R x y := by
  induction h with
  | nil => simp at hx
  | cons h1 _ ih =>
    rcases List.mem_cons.1 hx with rfl | hx
    · exact ⟨_, by simp, h1⟩
    · obtain ⟨y, hy, hr⟩ := ih hx
      exact ⟨y, by simp [hy], hr⟩

theorem forall₂_mem_right {α β : Type} {R : α → β → Prop} {l : List α} {l' : List β} (h : List.Forall₂ R l l') {y : β} (hy : y ∈ l') :
    ∃ x ∈ l, R x y := by
  induction h with
  | nil => simp at hy
  | cons h1 _ ih =>
    rcases List.mem_cons.1 hy with rfl | hy
    · exact ⟨_, by simp, h1⟩
    · obtain ⟨x, hx, hr⟩ := ih hy
      exact ⟨x, by simp [hx], hr⟩

/-- **C136** (reading archives): the content of a format whose extension no other format has is read in the archive under its name. -/
theorem C136_read (o : Obj δ) (physical : Bool) (L : List Format) (hL : exportFormats o.cls physical = .ok L)
    (es : List (String × Content)) (hz : zipSettings o physical = .ok es) (f : Format) (hf : f ∈ L) (hn : f.extension ≠ "zip")
    (hu : ∀ g ∈ L, g.extension = f.extension → g = f) (c : Content) (hc : Writes o f c) :
    readEntry es ("export." ++ f.extension) = some c := by
  have h2 := (C136_zip o physical L hL es).1 hz
  obtain ⟨e, he, h3, h4⟩ := forall₂_mem_left h2 (List.mem_filter.2 ⟨hf, by simpa using hn⟩)
  have hce : e.2 = c := by
    have := h4.1
    rw [hc.1] at this
    cases this
    rfl
  unfold readEntry
  rw [← h3, ← hce]
  apply lookup_unique e he
  intro x hx hxe
  obtain ⟨g, hg, h5, h6⟩ := forall₂_mem_right h2 hx
  have hg := (List.mem_filter.1 hg).1
  have : g.extension = f.extension := by
    rw [h5, h3] at hxe
    have := congrArg String.toList hxe
    simp only [String.toList_append, List.append_cancel_left_eq] at this
    exact String.toList_inj.1 this
  cases hu g hg this
  have := h6.1
  rw [h4.1] at this
  injection this with this
  exact Prod.ext (h5.trans h3.symm) this.symm

/-! ### What fails -/

/-- **C136** (decorated methods) is violated by selectors taken by all objects: exporting under "json" never writes what a method decorated
with this selector writes, but what `save_to_stream` does. -/
theorem C136_taken_violated (o : Obj δ) (physical : Bool) (h : Usual o.cls) (path p : String) (c : Content)
    (hs : saveExport o physical "json" path = .ok (p, c)) : o.write "save_to_stream" = .ok c := by
  obtain ⟨pre, f, post, e, hpre, hf, hw, -⟩ := (C136_save o physical _ (C136_formats _ h physical) "json" path p c).1 hs
  cases pre with
  | nil =>
    cases e
    exact hw.1
  | cons x pre =>
    have hx : x = ⟨"json", "json", "save_to_stream", true⟩ := (List.cons.inj e).1.symm
    exact absurd (by rw [hx]) (hpre x (List.mem_cons_self ..))

/-- **C136** (decorated methods) is violated by documents: a method decorated as a docx export which writes bytes, as such documents are,
cannot be exported, and the object has no archive at all. -/
theorem C136_docx_violated (o : Obj δ) (physical : Bool) (h : Usual o.cls) (m : Member) (hm : m ∈ o.cls) (s b : String)
    (hd : Deco.exp .docx s ∈ m.fn.decos) (hb : o.write m.fn.name = .ok (.bytes b)) (es : List (String × Content)) :
    zipSettings o physical ≠ .ok es := by
  intro hz
  have h2 := (C136_zip o physical _ (C136_formats _ h physical) es).1 hz
  have hx := (mem_exports h _).2 ⟨m, hm, .docx, s, hd, rfl⟩
  obtain ⟨e, -, -, h4⟩ := forall₂_mem_left h2 (List.mem_filter.2 ⟨List.mem_append_left _ (List.mem_append_right _ hx), by simp [declared]⟩)
  obtain ⟨t, ht⟩ := h4.2.1 rfl
  have := h4.1
  rw [show ({ selector := _, extension := _, method := m.fn.name, text := _ } : Format).method = m.fn.name from rfl, hb, ht] at this
  cases this

/-- **C136** (archives as results) is violated: what `to_zip_stream` returns is never the archive, but a closed handle on its last entry. -/
theorem C136_stream_violated (o : Obj δ) (physical : Bool) (h : Usual o.cls) (es : List (String × Content)) (r : List Returned)
    (hz : toZip o physical = .ok (es, r)) : ∃ e, es.getLast? = some e ∧ r = [.entry e.1] := by
  unfold toZip at hz
  match hs : zipSettings o physical, hz with
  | .ok es', hz =>
    cases hz
    have h2 := (C136_zip o physical _ (C136_formats _ h physical) es).1 hs
    have hne : es ≠ [] := by
      rintro rfl
      have := h2.length_eq
      simp [before] at this
    rcases List.eq_nil_or_concat es with e | ⟨xs, x, e⟩
    · exact absurd e hne
    · refine ⟨x, by simp [e], ?_⟩
      rw [e, List.concat_eq_append, List.foldl_append]
      rfl

/-- A class with a decorated sheet, a text export and one under the selector "json". -/
def sampleExports : Class :=
  [⟨"dump", ⟨"dump", [.exp (.any "txt" true) "json"], true⟩, false⟩, ⟨"note", ⟨"note", [.exp (.any "txt" true) "Note"], true⟩, false⟩,
   ⟨"table", ⟨"table", [.exp .xlsx "Table"], true⟩, false⟩]

theorem sampleExports_usual : Usual sampleExports := by
  constructor
  · decide
  · decide
  · intro m hm _
    simp only [sampleExports, List.mem_cons, List.not_mem_nil, or_false] at hm
    rcases hm with rfl | rfl | rfl <;> rfl
  · intro m hm n hn
    simp only [sampleExports, List.mem_cons, List.not_mem_nil, or_false] at hm
    rcases hm with rfl | rfl | rfl <;> simp at hn
  · decide

/-- An object of this class. -/
def sampleExported : Obj String := ⟨sampleExports, fun _ => .error .valueError, fun n => .ok (
  if n = "note" then .text "a note" else if n = "dump" then .text "a dump" else if n = "save_to_stream" then .text "{}"
  else if n = "table" then .bytes "a table" else .bytes "other")⟩

example : ∃ p, saveExport sampleExported false "Note" "f.txt" = .ok (p, .text "a note") ∧ Located "f.txt" "txt" p :=
  C136_partial sampleExported false sampleExports_usual ⟨"note", ⟨"note", [.exp (.any "txt" true) "Note"], true⟩, false⟩
    (by simp [sampleExported, sampleExports]) (.any "txt" true) "Note" (by simp) (by decide) (by decide) (by decide) _ rfl
    (by simp [declared]) _

example : saveExport sampleExported false "Note" "f.txt" = .ok ("f.txt", .text "a note") ∧
    saveExport sampleExported false "Table" "f.txt" = .ok ("f.txt.xlsx", .bytes "a table") ∧
    saveExport sampleExported false "json" "f" = .ok ("f.json", .text "{}") := ⟨by rfl, by rfl, by rfl⟩

example : saveExport sampleExported false "dwg" "f" = .error .valueError := by
  apply C136_unknown sampleExported false _ (C136_formats _ sampleExports_usual false)
  decide

example : sampleExported.write "save_to_stream" = .ok (.text "{}") :=
  C136_taken_violated sampleExported false sampleExports_usual "f" "f.json" _ (by rfl)

/-- **C136** (archives) is violated by formats with the same extension: the archive of an object with a decorated sheet holds two entries
of the same name, and reading it gives the sheet of the method only, not the one of the object. -/
theorem C136_violated : ∃ es, zipSettings sampleExported false = .ok es ∧ ("export.xlsx", Content.bytes "other") ∈ es ∧
    ("export.xlsx", Content.bytes "a table") ∈ es ∧ readEntry es "export.xlsx" = some (.bytes "a table") :=
  ⟨_, rfl, by decide, by decide, rfl⟩

example : ∃ es, zipSettings sampleExported false = .ok es ∧ readEntry es "export.json" = some (.text "{}") :=
  ⟨_, rfl, C136_read sampleExported false _ (C136_formats _ sampleExports_usual false) _ rfl
    ⟨"json", "json", "save_to_stream", true⟩ (by decide) (by decide) (by decide) (.text "{}") ⟨rfl, by simp⟩⟩

example : ∃ es e, toZip sampleExported false = .ok (es, [.entry e]) := ⟨_, "export.xlsx", by rfl⟩

example : zipSettings (⟨oneMethod "report" [.exp .docx "Report"], fun _ => .error .valueError, fun _ => .ok (.bytes "b")⟩ : Obj Nat) false ≠
    .ok [] := by
  apply C136_docx_violated (s := "Report") (b := "b") (m := ⟨"report", ⟨"report", [.exp .docx "Report"], true⟩, false⟩)
  · constructor <;> simp [oneMethod, Deco.known, List.filter_cons]
  · simp [oneMethod]
  · simp
  · rfl

end DC.View
