import Verif.Views.Model
/- The methods found by their decorators, for classes written as usual. -/
namespace DC.View

open DC.Txt (Display displayFromSelector)

/-- Whether a decorator is one of this library. -/
def Deco.known : Deco → Bool
  | .view _ _ _ => true
  | .exp _ _ => true
  | .other _ => false

/-- A class written as usual: every method has the name of its `def`, no two have the same, every decorator is a name, an attribute or a
call, no other decorator has the name of one of this library, and no method has two decorators of this library. -/
structure Usual (C : Class) : Prop where
  names : ∀ m ∈ C, m.attr = m.fn.name
  nodup : (C.map (·.attr)).Nodup
  plain : ∀ m ∈ C, m.fn.decos ≠ [] → m.fn.plain = true
  read : ∀ m ∈ C, ∀ n, Deco.other n ∈ m.fn.decos → ∃ s, n = some s ∧ s ∉ "picture_view" :: displayDecorators ++ exportDecorators
  single : ∀ m ∈ C, (m.fn.decos.filter Deco.known).length ≤ 1

/-- The methods of a class: the functions, then the class methods. -/
def ordered (C : Class) : List Fn := ((C.filter fun m => !m.bound) ++ C.filter fun m => m.bound).map (·.fn)

theorem mem_ordered (C : Class) (f : Fn) : f ∈ ordered C ↔ ∃ m ∈ C, m.fn = f := by
  simp only [ordered, List.mem_map, List.mem_append, List.mem_filter]
  constructor
  · rintro ⟨m, (⟨h, -⟩ | ⟨h, -⟩), e⟩ <;> exact ⟨m, h, e⟩
  · rintro ⟨m, h, e⟩
    cases hb : m.bound
    · exact ⟨m, .inl ⟨h, by simp [hb]⟩, e⟩
    · exact ⟨m, .inr ⟨h, hb⟩, e⟩

/-- The name of a decorator, when it has one. -/
def Deco.nm (d : Deco) : String := match d.name with
  | .ok n => n
  | .error _ => ""

theorem decoNames_ok (ds : List Deco) (h : ∀ d ∈ ds, d ≠ .other none) : decoNames ds = .ok (ds.map Deco.nm) := by
  induction ds with
  | nil => rfl
  | cons d ds ih =>
    have h1 : d.name = .ok d.nm := by
      have := h d (by simp)
      rcases d with _ | _ | (_ | n)
      · rfl
      · rfl
      · exact absurd rfl this
      · rfl
    simp only [decoNames, h1, ih fun d hd => h d (by simp [hd]), List.map_cons]

theorem methodNames_ok (n : String) (fs : List Fn) (h : ∀ f ∈ fs, ∀ d ∈ f.decos, d ≠ .other none) :
    methodNames n fs = .ok ((fs.filter fun f => decide (n ∈ f.decos.map Deco.nm)).map (·.name)) := by
  induction fs with
  | nil => rfl
  | cons f fs ih =>
    simp only [methodNames, decoNames_ok _ (h f (by simp)), ih fun f hf => h f (by simp [hf]), List.filter_cons]
    by_cases hn : n ∈ f.decos.map Deco.nm
    · simp only [decide_true, if_true, hn, List.map_cons]
    · simp only [decide_false, hn, Bool.false_eq_true, if_false]

theorem mem_unique {C : Class} (hn : (C.map (·.attr)).Nodup) {m n : Member} (hm : m ∈ C) (h : n ∈ C) (e : m.attr = n.attr) : m = n := by
  induction C with
  | nil => simp at hm
  | cons x C ih =>
    rw [List.map_cons, List.nodup_cons] at hn
    rcases List.mem_cons.1 hm with hm1 | hm1 <;> rcases List.mem_cons.1 h with h1 | h1
    · rw [hm1, h1]
    · exact absurd (hm1 ▸ e ▸ List.mem_map_of_mem (f := (·.attr)) h1) hn.1
    · exact absurd (h1 ▸ e ▸ List.mem_map_of_mem (f := (·.attr)) hm1) hn.1
    · exact ih hn.2 hm1 h1

theorem getMethod_ok {C : Class} (h : Usual C) {m : Member} (hm : m ∈ C) : getMethod C m.fn.name = .ok m.fn := by
  have : C.find? (fun x => x.attr == m.fn.name) = some m := by
    rw [← h.names m hm]
    have hn := h.nodup
    clear h
    induction C with
    | nil => simp at hm
    | cons x C ih =>
      rw [List.map_cons, List.nodup_cons] at hn
      rw [List.find?_cons]
      rcases List.mem_cons.1 hm with rfl | hm
      · simp
      · have : (x.attr == m.attr) = false := by
          rw [beq_eq_false_iff_ne]
          exact fun e => hn.1 (e ▸ List.mem_map_of_mem (f := (·.attr)) hm)
        rw [this]
        exact ih hm hn.2
  simp only [getMethod, this]

theorem getMethods_ok {C : Class} (h : Usual C) (fs : List Fn) (hf : ∀ f ∈ fs, ∃ m ∈ C, m.fn = f) :
    getMethods C (fs.map (·.name)) = .ok fs := by
  induction fs with
  | nil => rfl
  | cons f fs ih =>
    obtain ⟨m, hm, rfl⟩ := hf f (by simp)
    simp only [List.map_cons, getMethods, getMethod_ok h hm, ih fun f h => hf f (by simp [h])]

theorem Usual.noNone {C : Class} (h : Usual C) {m : Member} (hm : m ∈ C) : ∀ d ∈ m.fn.decos, d ≠ .other none := by
  rintro d hd rfl
  obtain ⟨s, e, -⟩ := h.read m hm _ hd
  cases e

/-- The methods with a decorator are found, in the order of the methods of the class. -/
theorem decoratedMethods_ok {C : Class} (h : Usual C) (n : String) :
    decoratedMethods C n = .ok ((ordered C).filter fun f => decide (n ∈ f.decos.map Deco.nm)) := by
  have h1 : ∀ f ∈ allDecorated C, f ∈ ordered C := fun f hf => (List.mem_filter.1 hf).1
  have h2 : (allDecorated C).filter (fun f => decide (n ∈ f.decos.map Deco.nm)) =
      (ordered C).filter fun f => decide (n ∈ f.decos.map Deco.nm) := by
    unfold allDecorated
    rw [List.filter_filter]
    apply List.filter_congr
    intro f hf
    obtain ⟨m, hm, rfl⟩ := (mem_ordered C f).1 hf
    by_cases hn : n ∈ m.fn.decos.map Deco.nm
    · have hne : m.fn.decos ≠ [] := by
        intro e
        rw [e] at hn
        simp at hn
      simp [h.plain m hm hne, hne]
    · simp [hn]
  unfold decoratedMethods
  rw [methodNames_ok n _ fun f hf => by
    obtain ⟨m, hm, rfl⟩ := (mem_ordered C f).1 (h1 f hf)
    exact h.noNone hm, h2]
  exact getMethods_ok h _ fun f hf => (mem_ordered C f).1 (List.mem_filter.1 hf).1

theorem foldr_known (n : String) (ds : List Deco) (x : Meta) :
    ds.foldr (Deco.apply n) x = (ds.filter Deco.known).foldr (Deco.apply n) x := by
  induction ds with
  | nil => rfl
  | cons d ds ih =>
    rw [List.filter_cons]
    cases d <;> simp [Deco.known, Deco.apply, ih]

/-- The attributes of a method with one decorator of this library. -/
theorem attrs_known {f : Fn} {d : Deco} (h1 : (f.decos.filter Deco.known).length ≤ 1) (hd : d ∈ f.decos) (hk : d.known = true) :
    f.attrs = d.apply f.name {} := by
  have hm : d ∈ f.decos.filter Deco.known := List.mem_filter.2 ⟨hd, hk⟩
  unfold Fn.attrs
  rw [foldr_known]
  match hl : f.decos.filter Deco.known, h1, hm with
  | [x], _, hm => rw [List.mem_singleton.1 hm]; rfl

/-- Two decorators of this library on one method are the same. -/
theorem known_unique {ds : List Deco} (h1 : (ds.filter Deco.known).length ≤ 1) {d e : Deco} (hd : d ∈ ds) (he : e ∈ ds)
    (hk : d.known = true) (hl : e.known = true) : d = e := by
  have hm : d ∈ ds.filter Deco.known := List.mem_filter.2 ⟨hd, hk⟩
  have hn : e ∈ ds.filter Deco.known := List.mem_filter.2 ⟨he, hl⟩
  match hx : ds.filter Deco.known, h1, hm, hn with
  | [x], _, hm, hn => rw [List.mem_singleton.1 hm, List.mem_singleton.1 hn]

end DC.View
