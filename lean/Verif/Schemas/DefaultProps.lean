import Verif.Schemas.ClassProps
/-
Property C132: the default values of a class.
-/
namespace DC.Sch

open DC.Types (Ann Gen Builtin Signature)

set_option linter.unusedSectionVars false
set_option linter.unusedSimpArgs false

variable {W : Classes}

/-! ### Specification -/

mutual
/-- The value that stands for no value of a parameter with the annotation: None, or for each element of a tuple. -/
def Blank (W : Classes) : Ann → V → Prop
  | .builtin _, v => v = .none
  | .cls n, v => W.family (String.ofList n) = .object ∧ v = .none
  | .variadic t, v => ∃ u, Blank W t u ∧ v = .tuple [u]
  | .gen .tuple ts, v => ∃ us, Blanks W ts us ∧ v = .tuple us
  | .gen .list _, v => v = .none
  | .gen .iterator _, v => v = .none
  | .gen .dict _, v => v = .none
  | .gen .union _, v => v = .none
  | .gen .instanceOf _, v => v = .none
  | _, _ => False
/-- It is so of each element. -/
def Blanks (W : Classes) : List Ann → List V → Prop
  | [], vs => vs = []
  | a :: as, vs => ∃ u us, Blank W a u ∧ Blanks W as us ∧ vs = u :: us
end

mutual
/-- The annotations with such a value: builtin types, classes of objects, unions and InstanceOf, lists, dictionaries and tuples of those. -/
def HasBlank (W : Classes) : Ann → Prop
  | .builtin _ => True
  | .cls n => W.family (String.ofList n) = .object
  | .variadic t => HasBlank W t
  | .gen .tuple ts => HasBlanks W ts
  | .gen .list _ | .gen .iterator _ | .gen .dict _ | .gen .union _ | .gen .instanceOf _ => True
  | _ => False
/-- It is so of all annotations. -/
def HasBlanks (W : Classes) : List Ann → Prop
  | [] => True
  | a :: as => HasBlank W a ∧ HasBlanks W as
end

/-- The value of the parameter in the dictionary stands for its default if it has one, for no value otherwise. -/
structure DefaultOf (W : Classes) (t : Ann) (p : String × Option V) (x : V) : Prop where
  declared : Direct t → Faithful W t → ∀ v, p.2 = some v → Meant W t v x
  blank : HasBlank W t → p.2 = none → Blank W t x

/-! ### Default values -/

mutual
theorem blank_of_default : ∀ {a : Ann} {v : V}, HasBlank W a → defaultValue W a none = .ok v → Blank W a v
  | .builtin _, v, _, h => by
    simp only [defaultValue, Option.getD_none, Except.ok.injEq] at h
    simp only [Blank]
    exact h.symm
  | .cls n, v, hb, h => by
    simp only [HasBlank] at hb
    simp only [defaultValue, hb] at h
    simp only [Blank]
    cases hq : buildable W (String.ofList n) with
    | error e => rw [hq] at h; simp at h
    | ok _ =>
      rw [hq] at h
      simp only [objectDefault, Except.ok.injEq] at h
      exact ⟨hb, h.symm⟩
  | .variadic t, v, hb, h => by
    simp only [HasBlank] at hb
    simp only [defaultValue] at h
    by_cases ht : hasSchema W t = true
    · rw [if_pos ht] at h
      cases hv : defaultValue W t none with
      | error e => rw [hv] at h; simp at h
      | ok u =>
        rw [hv] at h
        simp only [Except.ok.injEq] at h
        simp only [Blank]
        exact ⟨u, blank_of_default hb hv, h.symm⟩
    · rw [if_neg ht] at h; simp at h
  | .gen .tuple ts, v, hb, h => by
    simp only [HasBlank] at hb
    simp only [defaultValue] at h
    by_cases ht : ts.all (hasSchema W) = true
    · rw [if_pos ht] at h
      cases hv : defaultValues W ts with
      | error e => rw [hv] at h; simp at h
      | ok us =>
        rw [hv] at h
        simp only [Except.ok.injEq] at h
        simp only [Blank]
        exact ⟨us, blanks_of_defaults hb hv, h.symm⟩
    · rw [if_neg ht] at h; simp at h
  | .gen .list _, v, _, h => by
    simp only [defaultValue, Except.ok.injEq] at h
    simp only [Blank]
    exact h.symm
  | .gen .iterator _, v, _, h => by
    simp only [defaultValue, Except.ok.injEq] at h
    simp only [Blank]
    exact h.symm
  | .gen .dict _, v, _, h => by
    simp only [defaultValue, Except.ok.injEq] at h
    simp only [Blank]
    exact h.symm
  | .gen .union _, v, _, h => by
    simp only [defaultValue, objectDefault, Except.ok.injEq] at h
    simp only [Blank]
    exact h.symm
  | .gen .instanceOf [], v, _, h => by simp [defaultValue] at h
  | .gen .instanceOf (a :: _), v, _, h => by
    simp only [defaultValue] at h
    simp only [Blank]
    cases hn : objectName W a with
    | error e => rw [hn] at h; simp at h
    | ok c =>
      rw [hn] at h
      dsimp only at h
      cases hq : buildable W c with
      | error e => rw [hq] at h; simp at h
      | ok _ =>
        rw [hq] at h
        simp only [objectDefault, Except.ok.injEq] at h
        exact h.symm
  | .any, _, hb, _ => by simp [HasBlank] at hb
  | .noneType, _, hb, _ => by simp [HasBlank] at hb
  | .type, _, hb, _ => by simp [HasBlank] at hb
  | .literal _, _, hb, _ => by simp [HasBlank] at hb
  | .optional _, _, hb, _ => by simp [HasBlank] at hb
  | .gen .type _, _, hb, _ => by simp [HasBlank] at hb
  | .gen .subclass _, _, hb, _ => by simp [HasBlank] at hb
  | .gen .method _, _, hb, _ => by simp [HasBlank] at hb
  | .gen .classMethod _, _, hb, _ => by simp [HasBlank] at hb
  | .gen .attr _, _, hb, _ => by simp [HasBlank] at hb
  | .gen .classAttr _, _, hb, _ => by simp [HasBlank] at hb
  | .gen .cadView _, _, hb, _ => by simp [HasBlank] at hb
  | .gen .plotData _, _, hb, _ => by simp [HasBlank] at hb
  | .gen .markdown _, _, hb, _ => by simp [HasBlank] at hb
theorem blanks_of_defaults : ∀ {as : List Ann} {vs : List V}, HasBlanks W as → defaultValues W as = .ok vs → Blanks W as vs
  | [], vs, _, h => by
    simp only [defaultValues, Except.ok.injEq] at h
    simp only [Blanks]
    exact h.symm
  | a :: as, vs, hb, h => by
    simp only [HasBlanks] at hb
    simp only [defaultValues] at h
    simp only [Blanks]
    cases hv : defaultValue W a none with
    | error e => rw [hv] at h; simp at h
    | ok u =>
      rw [hv] at h
      dsimp only at h
      cases hr : defaultValues W as with
      | error e => rw [hr] at h; simp at h
      | ok us =>
        rw [hr] at h
        simp only [Except.ok.injEq] at h
        exact ⟨u, us, blank_of_default hb.1 hv, blanks_of_defaults hb.2 hr, h.symm⟩
end

theorem defaultDict_ok : ∀ {as : List (Attr × Ann)} {d : List (Key × V)}, defaultDict W as = .ok d →
    List.Forall₂ (fun a x => x.1 = .str a.1.name ∧ defaultValue W a.2 a.1.default = .ok x.2) as d
  | [], d, h => by
    simp only [defaultDict, Except.ok.injEq] at h
    subst h
    exact .nil
  | (at_, t) :: as, d, h => by
    simp only [defaultDict] at h
    cases hv : defaultValue W t at_.default with
    | error e => rw [hv] at h; simp at h
    | ok v =>
      rw [hv] at h
      dsimp only at h
      cases hr : defaultDict W as with
      | error e => rw [hr] at h; simp at h
      | ok r =>
        rw [hr] at h
        simp only [Except.ok.injEq] at h
        subst h
        exact .cons ⟨rfl, hv⟩ (defaultDict_ok hr)

theorem defaultOf {t : Ann} {p : String × Option V} {x : V} (h : defaultValue W t p.2 = .ok x) : DefaultOf W t p x := by
  refine ⟨fun ht hf v hv => ?_, fun hb hn => ?_⟩
  · rw [hv] at h; exact meant_of_default ht hf h
  · rw [hn] at h; exact blank_of_default hb h

/-- An entry of a dictionary of default values is that of the parameter. -/
def Entry (W : Classes) (c : String) (p : String × Option V) (x : Key × V) : Prop :=
  x.1 = .str p.1 ∧ ∃ t, (W.define c).annotations.lookup p.1 = some t ∧ DefaultOf W t p x.2

theorem defaultDict_entries {c : String} {ps : List (String × Option V)} {as : List (Attr × Ann)}
    (h2 : List.Forall₂ (fun p a => a.1 = paramAttr (classDoc W c) p ∧ (W.define c).annotations.lookup p.1 = some a.2) ps as)
    {d : List (Key × V)} (h : defaultDict W as = .ok d) : List.Forall₂ (Entry W c) ps d := by
  have h3 := defaultDict_ok h
  clear h
  induction h2 generalizing d with
  | nil => cases h3; exact .nil
  | @cons p a ps as ha _ ih =>
    cases h3 with
    | @cons _ x _ d hx h3 =>
      refine .cons ⟨?_, a.2, ha.2, ?_⟩ (ih h3)
      · rw [hx.1, ha.1]; rfl
      · have h5 := hx.2
        rw [ha.1] at h5
        exact defaultOf h5

theorem forall₂_filter {α β : Type} {R : α → β → Prop} {f : α → Bool} {g : β → Bool} (hfg : ∀ a b, R a b → f a = g b) :
    ∀ {as : List α} {bs : List β}, List.Forall₂ R as bs → List.Forall₂ R (as.filter f) (bs.filter g) := by
  intro as bs h
  induction h with
  | nil => exact .nil
  | @cons a b as bs h _ ih =>
    rw [List.filter_cons, List.filter_cons, hfg a b h]
    split
    · exact .cons h ih
    · exact ih

theorem entries_key {c k : String} {ps : List (String × Option V)} {d : List (Key × V)} (h : List.Forall₂ (Entry W c) ps d)
    (hk : Key.str k ∈ d.map (·.1)) : k ∈ ps.map (·.1) := by
  induction h with
  | nil => simp at hk
  | @cons p x ps d hx _ ih =>
    simp only [List.map_cons, List.mem_cons] at hk ⊢
    rcases hk with hk | hk
    · left
      rw [hx.1] at hk
      simpa using hk
    · exact .inr (ih hk)

/-- The default dictionary of a class has one entry for each parameter of its constructor that is not reserved, in order, and
`object_class`; the entry stands for the default of the parameter, or for no value when it has none.  Missing for the full property:
entries for other annotations, see `C132_undefined_violated`, `C132_optional_violated`, `C132_mutable_violated` and
`C132_measure_violated`. -/
theorem C132_partial {c : String} {sig : Signature V} (hv : sig.Valid) {first : String × Option V} {params : List (String × Option V)}
    (hp : sig.params = first :: params) (hf : first.1 ∈ Types.reserved) (hd : (W.define c).spec = sig.spec)
    (ho : "object_class" ∉ params.map (·.1)) {s : Schema} (hs : classSchema W c = .ok s) {D : List (Key × V)}
    (h : classDefaultDict W c s = .ok D) :
    ∃ d, D = d ++ [(.str "object_class", .str c)] ∧ List.Forall₂ (Entry W c) (Types.shown params) d := by
  have hm : Types.memberAttributes (W.define c).spec = .ok (Types.shown params) := by rw [hd]; exact Types.C102_partial hv hp hf
  obtain ⟨-, h2⟩ := classSchema_ok hm hs
  unfold classDefaultDict at h
  cases hq : defaultDict W s.attributes with
  | error e => rw [hq] at h; simp at h
  | ok d =>
    rw [hq] at h
    simp only [Except.ok.injEq] at h
    subst h
    have h3 := defaultDict_entries h2 hq
    refine ⟨d, dictSet_new _ _ _ ?_, h3⟩
    intro hk
    have hk' := entries_key h3 hk
    obtain ⟨p, hpm, hpe⟩ := List.mem_map.1 hk'
    exact ho (List.mem_map.2 ⟨p, List.mem_of_mem_filter hpm, hpe⟩)

/-- The default value of a schema has one entry for each of these parameters that declare a default, in order, and no other.
Missing: see the `_violated` theorems of C132. -/
theorem C132_declared_partial {c : String} {sig : Signature V} (hv : sig.Valid) {first : String × Option V} {params : List (String × Option V)}
    (hp : sig.params = first :: params) (hf : first.1 ∈ Types.reserved) (hd : (W.define c).spec = sig.spec) {s : Schema}
    (hs : classSchema W c = .ok s) {D : List (Key × V)} (h : declaredDefaults W s = .ok D) :
    List.Forall₂ (Entry W c) ((Types.shown params).filter fun p => p.2.isSome) D := by
  have hm : Types.memberAttributes (W.define c).spec = .ok (Types.shown params) := by rw [hd]; exact Types.C102_partial hv hp hf
  obtain ⟨-, h2⟩ := classSchema_ok hm hs
  exact defaultDict_entries (forall₂_filter (fun p a ha => by rw [ha.1]; rfl) h2) h

/-- The constructor of a car meets the hypotheses. -/
example : ∃ s D, classSchema demo "demo.Car" = .ok s ∧ classDefaultDict demo "demo.Car" s = .ok D ∧
    D.map (·.1) = [.str "mass", .str "wheels", .str "spare", .str "kind", .str "name", .str "object_class"] := ⟨_, _, rfl, rfl, rfl⟩

example : ∃ s D, classSchema demo "demo.Car" = .ok s ∧ declaredDefaults demo s = .ok D ∧
    D = [(.str "spare", .none), (.str "kind", .str "demo.Wheel"), (.str "name", .str "")] := ⟨_, _, rfl, rfl, rfl⟩

example : "object_class" ∉ carSig.params.tail.map (·.1) := by decide

/-- The classes of references (specification). -/
inductive RefersBy : Gen → String → Prop
  | method : RefersBy .method "dessia_common.typings.MethodType"
  | classMethod : RefersBy .classMethod "dessia_common.typings.ClassMethodType"
  | attr : RefersBy .attr "dessia_common.typings.AttributeType"
  | classAttr : RefersBy .classAttr "dessia_common.typings.ClassAttributeType"
  | cadView : RefersBy .cadView "dessia_common.typings.CadViewType"
  | plotData : RefersBy .plotData "dessia_common.typings.PlotDataType"
  | markdown : RefersBy .markdown "dessia_common.typings.MarkdownType"

/-- Without default, a reference to a method, an attribute or a view of a class of objects is one without name on this class, and `Type[...]` of
it is this class; for `Type` the reference is on no class.  Missing for the full property: see `C132_partial`. -/
theorem C132_references_partial {g : Gen} {r : String} (hg : RefersBy g r) (ts : List Ann) :
    (∀ n, W.family (String.ofList n) = .object →
      defaultValue W (.gen g (.cls n :: ts)) none =
        .ok (.dict [(.str "object_class", .str r), (.str "class_", .str (String.ofList n)), (.str "name", .none)]) ∧
      defaultValue W (.gen .type (.cls n :: ts)) none = .ok (.str (String.ofList n))) ∧
    defaultValue W (.gen g (.type :: ts)) none =
      .ok (.dict [(.str "object_class", .str r), (.str "class_", .none), (.str "name", .none)]) := by
  refine ⟨fun n hn => ⟨?_, ?_⟩, ?_⟩
  · cases hg <;> simp only [defaultValue, attrDefault, objectClass, hn] <;> rfl
  · simp only [defaultValue, classDefault, objectClass, hn]
  · cases hg <;> simp only [defaultValue, attrDefault, objectClass] <;> rfl

example : demo.family (String.ofList "demo.Wheel".toList) = .object := by decide

/-! ### Violations -/

/-- **C132** is violated: a reference to a method or an attribute of what is no class, such as a list of objects, has no default value, but a
TypeError. -/
theorem C132_typing_violated {g : Gen} {r : String} (hg : RefersBy g r) (us ts : List Ann) :
    defaultValue W (.gen g (.gen .list us :: ts)) none = .error .typeError ∧
    defaultValue W (.gen .type (.gen .list us :: ts)) none = .error .typeError := by
  constructor
  · cases hg <;> simp only [defaultValue, attrDefault, objectClass]
  · simp only [defaultValue, classDefault, objectClass]

/-- **C132** is violated: without default, a file, an argument that takes any value, a literal or an optional argument is given the mark of
undefined values, and not None. -/
theorem C132_undefined_violated (t : Ann) (vs : List (List Char)) : defaultValue W .any none = .ok undefined ∧
    defaultValue W (.literal vs) none = .ok undefined ∧ defaultValue W (.optional t) none = .ok undefined ∧
    (∀ n, W.family (String.ofList n) = .file → defaultValue W (.cls n) none = .ok undefined) ∧ undefined ≠ .none := by
  refine ⟨?_, ?_, ?_, fun n hn => ?_, by simp [undefined]⟩
  · simp only [defaultValue, Option.getD_none]
  · simp only [defaultValue, Option.getD_none]
  · simp only [defaultValue, Option.getD_none]
  · simp only [defaultValue, hn, Option.getD_none]

/-- **C132** is violated: the default object of an optional argument is in the dictionary itself, and not the dictionary that stands for it, as
it is when the argument is not optional. -/
theorem C132_optional_violated {n : List Char} (hn : W.family (String.ofList n) = .object) (hs : ∃ s, classSchema W (String.ofList n) = .ok s)
    {c : String} {a : List (Key × V)} {d : V} (hd : serialize W.toWorld (.obj c a) = .ok d) :
    defaultValue W (.cls n) (some (.obj c a)) = .ok d ∧ defaultValue W (.optional (.cls n)) (some (.obj c a)) = .ok (.obj c a) := by
  obtain ⟨s, hs⟩ := hs
  constructor
  · simp only [defaultValue, hn, buildable_of_schema hs, objectDefault, hd]
  · simp only [defaultValue, Option.getD_some]

example : ∃ d, serialize demo.toWorld (.obj "demo.Wheel" [(.str "name", .str "left")]) = .ok d := ⟨_, rfl⟩

/-- **C132** is violated: the default of a list, of an iterator or of a dictionary is dropped, in the default values and in the form alike. -/
theorem C132_mutable_violated (g : Gen) (hg : g = .list ∨ g = .iterator ∨ g = .dict) (ts : List Ann) (v : V) :
    defaultValue W (.gen g ts) (some v) = .ok .none := by
  rcases hg with rfl | rfl | rfl <;> simp only [defaultValue]

/-- **C132** is violated for measures: the class of a default measure is lost, an int is refused although it is a proper value of a measure,
and without default the class in the dictionary is not the name of any class of measures. -/
theorem C132_measure_violated {n : List Char} (hn : W.family (String.ofList n) = .measure) (m : String) (q : Rat) (i : Int) :
    defaultValue W (.cls n) (some (.measure m q)) = .ok (.dict [(.str "object_class", .str "dessia_common.measures.Measure"), (.str "value", .flt q)]) ∧
    defaultValue W (.cls n) (some (.int i)) = .error .valueError ∧
    defaultValue W (.cls n) none = .ok (.dict [(.str "object_class", .str "dessia_common.measures.type"), (.str "value", .none)]) := by
  refine ⟨?_, ?_, ?_⟩ <;> simp only [defaultValue, hn, measureDefault, measureDict]

example : demo.family (String.ofList "demo.Mass".toList) = .measure := by decide

end DC.Sch
