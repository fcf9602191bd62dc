import Verif.Schemas.FormProps
/-
Property C131: which classes have a form, and what the form of a class shows.
-/
namespace DC.Sch

open DC.Types (Ann Gen Builtin Signature)

set_option linter.unusedSectionVars false
set_option linter.unusedSimpArgs false

variable {W : Classes}

/-! ### Specification -/

mutual
/-- No `Optional[Literal[...]]` nor `Optional[Tuple[T, ...]]` within. -/
def Plain : Ann → Prop
  | .optional (.literal _) => False
  | .optional (.variadic _) => False
  | .optional t => Plain t
  | .variadic t => Plain t
  | .gen _ ts => PlainAll ts
  | _ => True
/-- None of the annotations has one within. -/
def PlainAll : List Ann → Prop
  | [] => True
  | t :: ts => Plain t ∧ PlainAll ts
end

mutual
/-- The annotations within lists and iterators are plain. -/
def Calm : Ann → Prop
  | .optional t => Calm t
  | .variadic t => Calm t
  | .gen .tuple ts => CalmAll ts
  | .gen .list (t :: ts) => Calm t ∧ PlainAll (t :: ts)
  | .gen .iterator (t :: ts) => Calm t ∧ PlainAll (t :: ts)
  | _ => True
/-- It is so of all annotations. -/
def CalmAll : List Ann → Prop
  | [] => True
  | t :: ts => Calm t ∧ CalmAll ts
end

/-- The class of objects that the annotation names, if any, has a schema. -/
def Readable (W : Classes) : Ann → Prop
  | .optional t => Readable W t
  | .cls n => W.family (String.ofList n) = .object → ∃ s, classSchema W (String.ofList n) = .ok s
  | .gen .instanceOf (.cls n :: _) => ∃ s, classSchema W (String.ofList n) = .ok s
  | _ => True

/-- The annotation is a measure. -/
def IsMeasure (W : Classes) : Ann → Prop
  | .optional t => IsMeasure W t
  | .cls n => W.family (String.ofList n) = .measure
  | _ => False

/-- The value is a proper default of an argument with the annotation: the float or the measure for a measure, otherwise one that JSON can stand for. -/
structure Fits (W : Classes) (a : Ann) (v : V) : Prop where
  readable : Readable W a
  measure : IsMeasure W a → (∃ q, v = .flt q) ∨ ∃ m q, v = .measure m q
  value : Faithful W a → ∃ d, Meant W a v d

/-! ### Forms exist -/

theorem buildable_of_schema {c : String} {s : Schema} (h : classSchema W c = .ok s) : buildable W c = .ok () := by
  unfold classSchema at h
  unfold buildable
  dsimp only at h
  cases hm : Types.memberAttributes (W.define c).spec with
  | error e => rw [hm] at h; simp at h
  | ok as =>
    rw [hm] at h
    dsimp only at h ⊢
    cases hs : schemasOf W (W.define c).annotations as with
    | error e => rw [hs] at h; simp at h
    | ok ps => rfl

theorem objectDefault_of {v d : V} (h : ObjectDefault W v d) : objectDefault W (some v) = .ok d := by
  rcases h with ⟨rfl, rfl⟩ | ⟨⟨c, a, rfl⟩, h⟩
  · rfl
  · exact h

theorem default_of_fits {a : Ann} (ha : Direct a) (hs : Shown W a) {v : V} (h : Fits W a v) : ∃ d, defaultValue W a (some v) = .ok d := by
  cases hs with
  | optional _ => exact ha.elim
  | builtin => exact ⟨_, by simp only [defaultValue]; rfl⟩
  | any => exact ⟨_, by simp only [defaultValue]; rfl⟩
  | noneType => exact ⟨_, by simp only [defaultValue]; rfl⟩
  | literal => exact ⟨_, by simp only [defaultValue]; rfl⟩
  | variadic => exact ⟨_, by simp only [defaultValue]; rfl⟩
  | tuple => exact ⟨_, by simp only [defaultValue]; rfl⟩
  | list => exact ⟨_, by simp only [defaultValue]; rfl⟩
  | iterator => exact ⟨_, by simp only [defaultValue]; rfl⟩
  | dict => exact ⟨_, by simp only [defaultValue]; rfl⟩
  | type =>
    obtain ⟨d, n, rfl, rfl⟩ := h.value trivial
    exact ⟨.str n, by simp only [defaultValue, classDefault]⟩
  | typeOf =>
    obtain ⟨d, n, rfl, rfl⟩ := h.value trivial
    exact ⟨.str n, by simp only [defaultValue, classDefault]⟩
  | union =>
    obtain ⟨d, hd⟩ := h.value trivial
    exact ⟨d, by simp only [defaultValue]; exact objectDefault_of hd⟩
  | @instanceOf t ts ht _ =>
    obtain ⟨n, rfl, hn⟩ := ht
    obtain ⟨d, hd⟩ := h.value trivial
    obtain ⟨s, hs⟩ := h.readable
    refine ⟨d, ?_⟩
    simp only [defaultValue, objectName, hn, buildable_of_schema hs]
    exact objectDefault_of hd
  | @cls n hn =>
    by_cases hm : W.family (String.ofList n) = .measure
    · rcases h.measure hm with ⟨q, rfl⟩ | ⟨m, q, rfl⟩
      · exact ⟨_, by simp only [defaultValue, hm, measureDefault]; rfl⟩
      · exact ⟨_, by simp only [defaultValue, hm, measureDefault]; rfl⟩
    · obtain ⟨d, hd⟩ := h.value hm
      by_cases ho : W.family (String.ofList n) = .object
      · obtain ⟨s, hs⟩ := h.readable ho
        unfold Meant at hd
        rw [if_pos ho] at hd
        refine ⟨d, ?_⟩
        simp only [defaultValue, ho, buildable_of_schema hs]
        exact objectDefault_of hd
      · refine ⟨v, ?_⟩
        simp only [defaultValue]
        rfl
  | @attr g t ts hg _ _ _ =>
    cases g <;> first
      | exact hg.elim
      | (obtain ⟨d, c, a, n, m, rfl, h1, h2, rfl⟩ := h.value trivial
         exact ⟨_, by simp only [defaultValue, attrDefault, methodDict, h1, h2]; rfl⟩)

theorem base_of {a : Ann} (ha : Direct a) (hs : Shown W a) {f : String} {at_ : Attr} (hd : ∀ v, at_.default = some v → Fits W a v) :
    ∃ e, base W a (.ok f) at_ = .ok e := by
  unfold base serialized
  rw [if_neg (by rw [lacks_of_known hs.known]; simp)]
  dsimp only
  cases h : at_.default with
  | none => exact ⟨_, rfl⟩
  | some v =>
    obtain ⟨d, hd⟩ := default_of_fits ha hs (hd v h)
    dsimp only
    rw [hd]
    exact ⟨_, rfl⟩

theorem withMore_of {c m : Except PyErr (List (Key × V))} (hc : ∃ e, c = .ok e) (hm : ∃ f, m = .ok f) : ∃ v, withMore c m = .ok v := by
  obtain ⟨e, rfl⟩ := hc
  obtain ⟨f, rfl⟩ := hm
  exact ⟨_, rfl⟩

mutual
theorem fileRelated_of : ∀ {a : Ann}, Plain a → ∃ b, fileRelated W a = .ok b
  | .builtin _, _ => ⟨_, by simp only [fileRelated]; rfl⟩
  | .any, _ => ⟨_, by simp only [fileRelated]; rfl⟩
  | .noneType, _ => ⟨_, by simp only [fileRelated]; rfl⟩
  | .type, _ => ⟨_, by simp only [fileRelated]; rfl⟩
  | .literal _, _ => ⟨_, by simp only [fileRelated]; rfl⟩
  | .cls _, _ => ⟨_, by simp only [fileRelated]; rfl⟩
  | .variadic t, h => by
    simp only [Plain] at h
    simp only [fileRelated]
    exact fileRelated_of h
  | .gen _ ts, h => by
    simp only [Plain] at h
    simp only [fileRelated]
    exact fileAny_of h
  | .optional (.gen _ ts), h => by
    simp only [Plain] at h
    simp only [fileRelated]
    exact fileAny_of h
  | .optional (.variadic _), h => by simp [Plain] at h
  | .optional (.literal _), h => by simp [Plain] at h
  | .optional (.builtin _), _ => ⟨_, by simp only [fileRelated]; rfl⟩
  | .optional .any, _ => ⟨_, by simp only [fileRelated]; rfl⟩
  | .optional .noneType, _ => ⟨_, by simp only [fileRelated]; rfl⟩
  | .optional .type, _ => ⟨_, by simp only [fileRelated]; rfl⟩
  | .optional (.cls _), _ => ⟨_, by simp only [fileRelated]; rfl⟩
  | .optional (.optional _), _ => ⟨_, by simp only [fileRelated]; rfl⟩
theorem fileAny_of : ∀ {as : List Ann}, PlainAll as → ∃ b, fileAny W as = .ok b
  | [], _ => ⟨_, by simp only [fileAny]; rfl⟩
  | a :: as, h => by
    simp only [PlainAll] at h
    obtain ⟨b, hb⟩ := fileRelated_of (a := a) h.1
    obtain ⟨c, hc⟩ := fileAny_of (as := as) h.2
    simp only [fileAny, hb]
    cases b with
    | true => exact ⟨_, rfl⟩
    | false => exact ⟨c, hc⟩
end

theorem listForm_of {g : Gen} {ts : List Ann} (h : PlainAll ts) : ∃ f, listForm W (.gen g ts) = .ok f := by
  unfold listForm
  simp only [fileRelated]
  obtain ⟨b, hb⟩ := fileAny_of (W := W) h
  rw [hb]
  cases b with
  | true => exact ⟨_, rfl⟩
  | false => exact ⟨_, rfl⟩

theorem objectName_of {a : Ann} (h : ObjectClass W a) : ∃ n, objectName W a = .ok n := by
  obtain ⟨n, rfl, hn⟩ := h
  exact ⟨_, by simp only [objectName, hn]; rfl⟩

theorem objectNames_of {ts : List Ann} (h : ∀ t ∈ ts, ObjectClass W t) : ∃ ns, objectNames W ts = .ok ns := by
  induction ts with
  | nil => exact ⟨_, rfl⟩
  | cons t ts ih =>
    obtain ⟨n, hn⟩ := objectName_of (h t (by simp))
    obtain ⟨ns, hns⟩ := ih fun u hu => h u (by simp [hu])
    exact ⟨_, by simp only [objectNames, hn, hns]; rfl⟩

theorem attrMore_of {g : Gen} {t : Ann} {at_ : Attr} (hk : Known W t) (hc : t = .type ∨ ∃ n, className t = some n) :
    ∃ f, attrMore W g t at_ = .ok f := by
  unfold attrMore
  have hb : ∃ e, base W (.gen .type [t]) (.ok "class") (classSchemaAttr at_ t) = .ok e := by
    refine base_of (by trivial) (.typeOf hk (by simp)) fun v hv => ?_
    refine ⟨by simp only [Readable], by simp only [IsMeasure, false_implies], fun _ => ?_⟩
    rcases hc with rfl | ⟨n, hn⟩
    · simp [classSchemaAttr] at hv
    · have hd : (classSchemaAttr at_ t).default = some (classValue t) := by
        unfold classSchemaAttr
        split
        · simp [className] at hn
        · rfl
      rw [hd, classValue, hn] at hv
      simp only [Option.some.injEq] at hv
      subst hv
      exact ⟨.str n, n, rfl, rfl⟩
  obtain ⟨v, hv⟩ := withMore_of hb ⟨_, rfl⟩
  rw [hv]
  exact ⟨_, rfl⟩

theorem Attr.sub_default {P : V → Prop} {a : Attr} {i : Nat} : ∀ v, (a.sub W i).default = some v → P v := by
  intro v hv
  simp [Attr.sub] at hv

theorem attr_of {g : Gen} {t : Ann} {ts : List Ann} (hg : IsAttr g) {at_ : Attr} :
    toDict W (.gen g (t :: ts)) at_ = withMore (base W (.gen g (t :: ts)) (.ok "attribute") at_) (attrMore W g t at_) := by
  cases g <;> first | exact hg.elim | simp only [toDict]

mutual
theorem toDict_of_shown : ∀ {a : Ann} {at_ : Attr}, Shown W a → Calm a → (∀ v, at_.default = some v → Fits W a v) →
    ∃ v, toDict W a at_ = .ok v
  | .optional t, at_, hs, hc, hd => by
    simp only [Calm] at hc
    simp only [toDict]
    cases hs with
    | optional hs =>
      exact toDict_of_shown hs hc fun v hv => by
        have := hd v hv
        exact ⟨this.readable, this.measure, this.value⟩
  | .builtin b, at_, hs, hc, hd => by simp only [toDict]; exact withMore_of (base_of (by trivial) hs hd) ⟨_, rfl⟩
  | .any, at_, hs, hc, hd => by simp only [toDict]; exact withMore_of (base_of (by trivial) hs hd) ⟨_, rfl⟩
  | .noneType, at_, hs, hc, hd => by simp only [toDict]; exact withMore_of (base_of (by trivial) hs hd) ⟨_, rfl⟩
  | .type, at_, hs, hc, hd => by simp only [toDict]; exact withMore_of (base_of (by trivial) hs hd) ⟨_, rfl⟩
  | .literal _, at_, hs, hc, hd => by simp only [toDict]; exact withMore_of (base_of (by trivial) hs hd) ⟨_, rfl⟩
  | .cls n, at_, hs, hc, hd => by
    simp only [toDict, clsForm]
    split
    · exact withMore_of (base_of (by trivial) hs hd) ⟨_, rfl⟩
    · exact withMore_of (base_of (by trivial) hs hd) ⟨_, rfl⟩
    · exact withMore_of (base_of (by trivial) hs hd) ⟨_, rfl⟩
    · exact withMore_of (base_of (by trivial) hs hd) ⟨_, rfl⟩
    · rename_i h1 h2 h3 h4
      cases hs with
      | cls hk =>
        obtain ⟨k1, k2⟩ := hk
        cases hf : W.family (String.ofList n) <;> simp_all
  | .variadic t, at_, hs, hc, hd => by
    simp only [Calm] at hc
    simp only [toDict]
    refine withMore_of (base_of (by trivial) hs hd) ?_
    cases hs with
    | variadic ht =>
      obtain ⟨v, hv⟩ := toDict_of_shown (at_ := at_.sub W 0) ht hc Attr.sub_default
      rw [hv]
      exact ⟨_, rfl⟩
  | .gen .tuple ts, at_, hs, hc, hd => by
    simp only [Calm] at hc
    simp only [toDict]
    refine withMore_of (base_of (by trivial) hs hd) ?_
    cases hs with
    | tuple ht =>
      obtain ⟨v, hv⟩ := toDicts_of_shown (at_ := at_) (i := 0) ht hc
      rw [hv]
      exact ⟨_, rfl⟩
    | attr hg => exact hg.elim
  | .gen .list (t :: ts), at_, hs, hc, hd => by
    simp only [Calm] at hc
    simp only [toDict]
    obtain ⟨f, hf⟩ := listForm_of (W := W) (g := .list) hc.2
    rw [hf]
    refine withMore_of (base_of (by trivial) hs hd) ?_
    cases hs with
    | list ht _ =>
      obtain ⟨v, hv⟩ := toDict_of_shown (at_ := at_.sub W 0) ht hc.1 Attr.sub_default
      rw [hv]
      exact ⟨_, rfl⟩
    | attr hg => exact hg.elim
  | .gen .iterator (t :: ts), at_, hs, hc, hd => by
    simp only [Calm] at hc
    simp only [toDict]
    obtain ⟨f, hf⟩ := listForm_of (W := W) (g := .iterator) hc.2
    rw [hf]
    refine withMore_of (base_of (by trivial) hs hd) ?_
    cases hs with
    | iterator ht _ =>
      obtain ⟨v, hv⟩ := toDict_of_shown (at_ := at_.sub W 0) ht hc.1 Attr.sub_default
      rw [hv]
      exact ⟨_, rfl⟩
    | attr hg => exact hg.elim
  | .gen .dict ts, at_, hs, hc, hd => by
    have hs' := hs
    cases hs with
    | @dict b =>
      simp only [toDict, dictTests]
      refine withMore_of (base_of (by trivial) hs' hd) ?_
      obtain ⟨v, hv⟩ := withMore_of (base_of (a := .builtin b) (f := "builtin") (at_ := at_.sub W 1) (by trivial) (.builtin (W := W)) Attr.sub_default)
        ⟨[(.str "type", .str (equivalence b)), (.str "formType", .str (equivalence b))], rfl⟩
      rw [hv]
      exact ⟨_, rfl⟩
    | attr hg => exact hg.elim
  | .gen .union ts, at_, hs, hc, hd => by
    simp only [toDict]
    refine withMore_of (base_of (by trivial) hs hd) ?_
    cases hs with
    | union hu =>
      obtain ⟨ns, hns⟩ := objectNames_of hu
      exact ⟨_, by simp only [unionMore, hns]; rfl⟩
    | attr hg => exact hg.elim
  | .gen .instanceOf ts, at_, hs, hc, hd => by
    have hs' := hs
    cases hs with
    | instanceOf ht _ =>
      simp only [toDict]
      refine withMore_of (base_of (by trivial) hs' hd) ?_
      obtain ⟨n, hn⟩ := objectName_of ht
      exact ⟨_, by simp only [instanceMore, hn]; rfl⟩
    | attr hg => exact hg.elim
  | .gen .type ts, at_, hs, hc, hd => by
    have hs' := hs
    cases hs with
    | typeOf _ _ =>
      simp only [toDict]
      exact withMore_of (base_of (by trivial) hs' hd) ⟨_, rfl⟩
    | attr hg => exact hg.elim
  | .gen .list [], at_, hs, hc, hd => by cases hs
  | .gen .iterator [], at_, hs, hc, hd => by cases hs
  | .gen .subclass ts, at_, hs, hc, hd => by
    cases hs with
    | attr hg => exact hg.elim
  | .gen .method ts, at_, hs, hc, hd => by
    have hs' := hs
    cases hs with
    | attr hg hk _ hn => rw [attr_of hg]; exact withMore_of (base_of (by trivial) hs' hd) (attrMore_of hk hn)
  | .gen .classMethod ts, at_, hs, hc, hd => by
    have hs' := hs
    cases hs with
    | attr hg hk _ hn => rw [attr_of hg]; exact withMore_of (base_of (by trivial) hs' hd) (attrMore_of hk hn)
  | .gen .attr ts, at_, hs, hc, hd => by
    have hs' := hs
    cases hs with
    | attr hg hk _ hn => rw [attr_of hg]; exact withMore_of (base_of (by trivial) hs' hd) (attrMore_of hk hn)
  | .gen .classAttr ts, at_, hs, hc, hd => by
    have hs' := hs
    cases hs with
    | attr hg hk _ hn => rw [attr_of hg]; exact withMore_of (base_of (by trivial) hs' hd) (attrMore_of hk hn)
  | .gen .cadView ts, at_, hs, hc, hd => by
    have hs' := hs
    cases hs with
    | attr hg hk _ hn => rw [attr_of hg]; exact withMore_of (base_of (by trivial) hs' hd) (attrMore_of hk hn)
  | .gen .plotData ts, at_, hs, hc, hd => by
    have hs' := hs
    cases hs with
    | attr hg hk _ hn => rw [attr_of hg]; exact withMore_of (base_of (by trivial) hs' hd) (attrMore_of hk hn)
  | .gen .markdown ts, at_, hs, hc, hd => by
    have hs' := hs
    cases hs with
    | attr hg hk _ hn => rw [attr_of hg]; exact withMore_of (base_of (by trivial) hs' hd) (attrMore_of hk hn)
theorem toDicts_of_shown : ∀ {ts : List Ann} {at_ : Attr} {i : Nat}, (∀ t ∈ ts, Shown W t) → CalmAll ts → ∃ vs, toDicts W at_ i ts = .ok vs
  | [], _, _, _, _ => ⟨_, by simp only [toDicts]; rfl⟩
  | t :: ts, at_, i, hs, hc => by
    simp only [CalmAll] at hc
    obtain ⟨v, hv⟩ := toDict_of_shown (at_ := at_.sub W i) (hs t (by simp)) hc.1 Attr.sub_default
    obtain ⟨vs, hvs⟩ := toDicts_of_shown (at_ := at_) (i := i + 1) (fun u hu => hs u (by simp [hu])) hc.2
    exact ⟨_, by simp only [toDicts, hv, hvs]; rfl⟩
end

/-! ### Classes -/

/-- The entry of the form of a parameter with the annotation `t`. -/
def paramAttr (doc : ParsedDoc) (p : String × Option V) : Attr := ⟨p.1, p.2, "", true, String.ofList (describe doc p.1.toList)⟩

theorem schemasOf_ok {ann : List (String × Ann)} : ∀ {as : List (String × Option V)} {ps : List (String × Option V × Ann)},
    schemasOf W ann as = .ok ps → List.Forall₂ (fun a p => p.1 = a.1 ∧ p.2.1 = a.2 ∧ ann.lookup a.1 = some p.2.2 ∧ hasSchema W p.2.2 = true) as ps
  | [], ps, h => by
    simp only [schemasOf, Except.ok.injEq] at h
    subst h
    exact .nil
  | (n, d) :: as, ps, h => by
    simp only [schemasOf] at h
    cases hl : ann.lookup n with
    | none => rw [hl] at h; simp at h
    | some t =>
      rw [hl] at h
      dsimp only at h
      by_cases ht : hasSchema W t = true
      · rw [if_pos ht] at h
        cases hr : schemasOf W ann as with
        | error e => rw [hr] at h; simp at h
        | ok r =>
          rw [hr] at h
          simp only [Except.ok.injEq] at h
          subst h
          exact .cons ⟨rfl, rfl, hl, ht⟩ (schemasOf_ok hr)
      · rw [if_neg ht] at h; simp at h

theorem schemasOf_of {ann : List (String × Ann)} : ∀ {as : List (String × Option V)},
    (∀ a ∈ as, ∃ t, ann.lookup a.1 = some t ∧ hasSchema W t = true) → ∃ ps, schemasOf W ann as = .ok ps
  | [], _ => ⟨_, rfl⟩
  | (n, d) :: as, h => by
    obtain ⟨t, ht, hs⟩ := h (n, d) (by simp)
    obtain ⟨ps, hps⟩ := schemasOf_of (as := as) fun a ha => h a (by simp [ha])
    exact ⟨_, by simp only [schemasOf, ht, hs, hps, if_true]; rfl⟩

theorem properties_ok : ∀ {as : List (Attr × Ann)} {vs : List V}, properties W as = .ok vs →
    List.Forall₂ (fun a v => toDict W a.2 a.1 = .ok v) as vs
  | [], vs, h => by
    simp only [properties, Except.ok.injEq] at h
    subst h
    exact .nil
  | (at_, t) :: as, vs, h => by
    simp only [properties] at h
    cases hv : toDict W t at_ with
    | error e => rw [hv] at h; simp at h
    | ok v =>
      rw [hv] at h
      dsimp only at h
      cases hr : properties W as with
      | error e => rw [hr] at h; simp at h
      | ok r =>
        rw [hr] at h
        simp only [Except.ok.injEq] at h
        subst h
        exact .cons hv (properties_ok hr)

theorem properties_of : ∀ {as : List (Attr × Ann)}, (∀ a ∈ as, ∃ v, toDict W a.2 a.1 = .ok v) → ∃ vs, properties W as = .ok vs
  | [], _ => ⟨_, rfl⟩
  | (at_, t) :: as, h => by
    obtain ⟨v, hv⟩ := h (at_, t) (by simp)
    obtain ⟨vs, hvs⟩ := properties_of (as := as) fun a ha => h a (by simp [ha])
    exact ⟨_, by simp only [properties, hv, hvs]; rfl⟩

theorem Shown.hasSchema {a : Ann} (h : Shown W a) : hasSchema W a = true := by
  have hk := h.known
  cases hk with
  | cls hn =>
    obtain ⟨h1, h2⟩ := hn
    simp only [Sch.hasSchema, Sch.known]
  | gen hg => simp_all [Sch.hasSchema]
  | _ => simp [Sch.hasSchema]

/-- The documentation of a class, read from its docstring. -/
def classDoc (W : Classes) (c : String) : ParsedDoc := memberDoc (docAnn W (W.define c).annotations) (W.define c).doc

/-- The entries that a class shows: one for each parameter, in order. -/
def Shows (W : Classes) (c : String) (ps : List (String × Option V)) (vs : List V) : Prop :=
  List.Forall₂ (fun p v => ∃ t e, (W.define c).annotations.lookup p.1 = some t ∧ v = .dict e ∧ Shown W t ∧ Tells W t (paramAttr (classDoc W c) p) e) ps vs

/-- The steps of a form: there is one, and its entries are `vs`. -/
def Steps (D : List (Key × V)) (vs : List V) : Prop :=
  ∃ step, D.lookup (.str "steps") = some (.list [.dict step]) ∧ step.lookup (.str "properties") = some (.list vs)

theorem classSchema_ok {c : String} {as : List (String × Option V)} (hm : Types.memberAttributes (W.define c).spec = .ok as) {s : Schema}
    (hs : classSchema W c = .ok s) : s.documentation = (classDoc W c).description ∧
      List.Forall₂ (fun p a => a.1 = paramAttr (classDoc W c) p ∧ (W.define c).annotations.lookup p.1 = some a.2) as s.attributes := by
  simp only [classSchema, hm] at hs
  cases hr : schemasOf W (W.define c).annotations as with
  | error e => rw [hr] at hs; simp at hs
  | ok ps =>
    rw [hr] at hs
    simp only [Except.ok.injEq] at hs
    subst hs
    refine ⟨rfl, ?_⟩
    have := schemasOf_ok hr
    clear hr hm
    induction this with
    | nil => exact .nil
    | @cons a p as ps h _ ih =>
      obtain ⟨h1, h2, h3, -⟩ := h
      refine .cons ⟨?_, h3⟩ ih
      simp only [paramAttr, classDoc, h1, h2]

/-- The form of a class has one entry for each parameter of its constructor that is not reserved, in order, which tells its name, its
annotation, its documentation, and its default value when it has one; these annotations are among those with a form.  Missing for the
full property: see `C131_editable_violated`, `C131_optional_union_violated`, `C131_optional_literal_violated` and
`C131_class_default_violated`. -/
theorem C131_partial {c : String} {sig : Signature V} (hv : sig.Valid) {first : String × Option V} {params : List (String × Option V)}
    (hp : sig.params = first :: params) (hf : first.1 ∈ Types.reserved) (hd : (W.define c).spec = sig.spec) {s : Schema}
    (hs : classSchema W c = .ok s) {ids : String × String} {D : List (Key × V)} (h : classDict W ids c s = .ok D) :
    (∃ vs, Steps D vs ∧ Shows W c (Types.shown params) vs) ∧
      D.lookup (.str "description") = some (.str (String.ofList (classDoc W c).description)) ∧
      D.lookup (.str "classes") = some (.list [.str c]) ∧ D.lookup (.str "standaloneInDb") = some (.bool (W.info c).standalone) := by
  have hm : Types.memberAttributes (W.define c).spec = .ok (Types.shown params) := by rw [hd]; exact Types.C102_partial hv hp hf
  obtain ⟨h1, h2⟩ := classSchema_ok hm hs
  unfold classDict at h
  cases hq : properties W s.attributes with
  | error e => rw [hq] at h; simp at h
  | ok vs =>
    rw [hq] at h
    simp only [Except.ok.injEq] at h
    subst h
    refine ⟨⟨vs, ⟨_, rfl, rfl⟩, ?_⟩, ?_, rfl, rfl⟩
    · have h3 := properties_ok hq
      unfold Shows
      generalize Types.shown params = ps at h2
      generalize s.attributes = as at h2 h3
      clear hq hs hm h1
      induction h2 generalizing vs with
      | nil => cases h3; exact .nil
      | @cons p a ps as ha _ ih =>
        cases h3 with
        | @cons _ v _ vs hv3 h3 =>
          refine .cons ?_ (ih vs h3)
          obtain ⟨e, he, ht⟩ := toDict_tells hv3
          rw [ha.1] at ht
          exact ⟨a.2, e, ha.2, he, shown_of_toDict hv3, ht⟩
    · rw [← h1]; rfl

/-- A class has a schema only if each parameter shown has an annotation, which is not a class without a form, a Subclass, or a generic
type without arguments other than Tuple. -/
theorem C131_annotated {c : String} {sig : Signature V} (hv : sig.Valid) {first : String × Option V} {params : List (String × Option V)}
    (hp : sig.params = first :: params) (hf : first.1 ∈ Types.reserved) (hd : (W.define c).spec = sig.spec) {s : Schema}
    (hs : classSchema W c = .ok s) : ∀ p ∈ Types.shown params, ∃ t, (W.define c).annotations.lookup p.1 = some t ∧
      (∀ n, t = .cls n → KnownClass W n) ∧ (∀ ts, t ≠ .gen .subclass ts) ∧ ∀ g, t = .gen g [] → g = .tuple := by
  have hm : Types.memberAttributes (W.define c).spec = .ok (Types.shown params) := by rw [hd]; exact Types.C102_partial hv hp hf
  simp only [classSchema, hm] at hs
  cases hr : schemasOf W (W.define c).annotations (Types.shown params) with
  | error e => rw [hr] at hs; simp at hs
  | ok ps =>
    have h1 := schemasOf_ok hr
    intro p hpm
    have h2 : ∃ q, (W.define c).annotations.lookup p.1 = some q ∧ Sch.hasSchema W q = true := by
      generalize Types.shown params = as at h1 hpm
      clear hr hm hs
      induction h1 with
      | nil => simp at hpm
      | cons h _ ih =>
        rcases List.mem_cons.1 hpm with hq | hq
        · rw [hq]; exact ⟨_, h.2.2.1, h.2.2.2⟩
        · exact ih hq
    obtain ⟨t, ht, hh⟩ := h2
    refine ⟨t, ht, ?_, ?_, ?_⟩
    · intro n hn
      subst hn
      simp only [Sch.hasSchema, Sch.known] at hh
      split at hh
      · simp at hh
      · simp at hh
      · rename_i h1 h2
        exact ⟨h1, h2⟩
    · intro ts hn
      subst hn
      simp [Sch.hasSchema] at hh
    · intro g hn
      subst hn
      cases g <;> simp_all [Sch.hasSchema]

/-- A class has a form if the annotations of its parameters are among those with a form, and their defaults are proper to them.
Missing: the other annotations (`C131_optional_union_violated`, `C131_optional_literal_violated`) and defaults (`C131_class_default_violated`). -/
theorem C131_form_partial {c : String} {sig : Signature V} (hv : sig.Valid) {first : String × Option V} {params : List (String × Option V)}
    (hp : sig.params = first :: params) (hf : first.1 ∈ Types.reserved) (hd : (W.define c).spec = sig.spec)
    (ha : ∀ p ∈ Types.shown params, ∃ t, (W.define c).annotations.lookup p.1 = some t ∧ Shown W t ∧ Calm t ∧ ∀ v, p.2 = some v → Fits W t v)
    (ids : String × String) : ∃ s D, classSchema W c = .ok s ∧ classDict W ids c s = .ok D := by
  have hm : Types.memberAttributes (W.define c).spec = .ok (Types.shown params) := by rw [hd]; exact Types.C102_partial hv hp hf
  have h1 : ∃ s, classSchema W c = .ok s := by
    obtain ⟨ps, hps⟩ := schemasOf_of (W := W) (ann := (W.define c).annotations) (as := Types.shown params) fun a h =>
      have ⟨t, ht, hs, _⟩ := ha a h
      ⟨t, ht, hs.hasSchema⟩
    exact ⟨_, by simp only [classSchema, hm, hps]; rfl⟩
  obtain ⟨s, hs⟩ := h1
  obtain ⟨-, h2⟩ := classSchema_ok hm hs
  have h3 : ∃ vs, properties W s.attributes = .ok vs := by
    apply properties_of
    generalize Types.shown params = ps at h2 ha
    generalize s.attributes = as at h2
    clear hs hm
    induction h2 with
    | nil => intro a ha; simp at ha
    | @cons p a ps as hpa _ ih =>
      intro b hb
      rcases List.mem_cons.1 hb with rfl | hb
      · obtain ⟨t, ht, hsh, hca, hfi⟩ := ha p (by simp)
        rw [hpa.2] at ht
        simp only [Option.some.injEq] at ht
        subst ht
        refine toDict_of_shown hsh hca ?_
        rw [hpa.1]
        exact hfi
      · exact ih (fun q hq => ha q (by simp [hq])) b hb
  obtain ⟨vs, hvs⟩ := h3
  exact ⟨s, _, hs, by simp only [classDict, hvs]; rfl⟩

/-! ### Examples -/

/-- A constructor of a wheel: a name.  Example only. -/
def wheelSig : Signature V := ⟨[("self", none), ("name", some (.str ""))], []⟩

/-- A constructor of a car: a mass, wheels, a spare wheel, a kind and a name.  Example only. -/
def carSig : Signature V :=
  ⟨[("self", none), ("mass", none), ("wheels", none), ("spare", some .none), ("kind", some (.cls "demo.Wheel")), ("name", some (.str ""))], []⟩

/-- The annotations of the constructor of a car: `Mass`, `List[Wheel]`, `Optional[Wheel]`, `Type[Wheel]` and `str`.  Example only. -/
def carAnn : List (String × Ann) :=
  [("mass", .cls "demo.Mass".toList), ("wheels", .gen .list [.cls "demo.Wheel".toList]), ("spare", .optional (.cls "demo.Wheel".toList)),
   ("kind", .gen .type [.cls "demo.Wheel".toList]), ("name", .builtin .str)]

/-- Two classes of objects and one of measures.  Example only. -/
def demo : Classes where
  info := fun _ => { standalone := true }
  kind := fun _ => none
  resolve := fun _ => none
  family := fun c => if c = "demo.Mass" then .measure else if c = "demo.Wheel" ∨ c = "demo.Car" then .object else .other
  unit := fun _ => "kg"
  upper := fun c => [c.toUpper]
  define := fun c => if c = "demo.Car" then ⟨carSig.spec, carAnn, some "A car. :param mass: Empty mass".toList, ["mass"]⟩
    else ⟨wheelSig.spec, [("name", .builtin .str)], none, []⟩

theorem carSig_valid : carSig.Valid := by
  refine ⟨by decide, [("self", none), ("mass", none), ("wheels", none)],
    [("spare", some .none), ("kind", some (.cls "demo.Wheel")), ("name", some (.str ""))], rfl, ?_, ?_⟩
  · simp
  · simp

theorem wheelSig_valid : wheelSig.Valid := by
  refine ⟨by decide, [("self", none)], [("name", some (.str ""))], rfl, ?_, ?_⟩ <;> simp

/-- The schema of a wheel.  Example only. -/
theorem wheel_schema : ∃ s, classSchema demo "demo.Wheel" = .ok s := by
  obtain ⟨s, D, hs, -⟩ := C131_form_partial (W := demo) (c := "demo.Wheel") wheelSig_valid (first := ("self", none)) rfl (by decide) rfl (by
    intro p hp
    have : p = ("name", some (.str "")) := by simpa [Types.shown, Types.reserved] using hp
    subst this
    refine ⟨.builtin .str, rfl, .builtin, trivial, fun v hv => ⟨trivial, fun h => h.elim, fun _ => ⟨v, rfl⟩⟩⟩) ("", "")
  exact ⟨s, hs⟩

theorem wheel_shown : Shown demo (.cls "demo.Wheel".toList) := .cls ⟨by decide, by decide⟩

/-- The constructor of a car meets the hypotheses of both theorems. -/
example : ∃ s D vs, classSchema demo "demo.Car" = .ok s ∧ classDict demo ("g", "i") "demo.Car" s = .ok D ∧ Steps D vs ∧
    Shows demo "demo.Car" [("mass", none), ("wheels", none), ("spare", some .none), ("kind", some (.cls "demo.Wheel")), ("name", some (.str ""))] vs := by
  obtain ⟨s, D, hs, hD⟩ := C131_form_partial (W := demo) (c := "demo.Car") carSig_valid (first := ("self", none)) rfl (by decide) rfl (by
    intro p hp
    have : p = ("mass", none) ∨ p = ("wheels", none) ∨ p = ("spare", some .none) ∨ p = ("kind", some (.cls "demo.Wheel")) ∨ p = ("name", some (.str "")) := by
      simpa [Types.shown, Types.reserved] using hp
    rcases this with rfl | rfl | rfl | rfl | rfl
    · exact ⟨_, rfl, .cls ⟨by decide, by decide⟩, trivial, fun v hv => by simp at hv⟩
    · exact ⟨_, rfl, .list wheel_shown (by simp), ⟨trivial, trivial, trivial⟩, fun v hv => by simp at hv⟩
    · refine ⟨_, rfl, .optional wheel_shown, trivial, fun v hv => ?_⟩
      simp only [Option.some.injEq] at hv
      subst hv
      exact ⟨fun _ => wheel_schema, fun h => absurd (show demo.family (String.ofList "demo.Wheel".toList) = .measure from h) (by decide), fun _ => ⟨.none, by
        show Meant demo (.cls "demo.Wheel".toList) .none .none
        unfold Meant
        rw [if_pos (by decide)]
        exact .inl ⟨rfl, rfl⟩⟩⟩
    · refine ⟨_, rfl, .typeOf wheel_shown.known (by simp), trivial, fun v hv => ?_⟩
      simp only [Option.some.injEq] at hv
      subst hv
      exact ⟨trivial, fun h => h.elim, fun _ => ⟨.str "demo.Wheel", _, rfl, rfl⟩⟩
    · exact ⟨_, rfl, .builtin, trivial, fun v hv => ⟨trivial, fun h => h.elim, fun _ => ⟨v, rfl⟩⟩⟩) ("g", "i")
  obtain ⟨⟨vs, h1, h2⟩, -⟩ := C131_partial (W := demo) (c := "demo.Car") carSig_valid (first := ("self", none)) rfl (by decide) rfl hs hD
  exact ⟨s, D, vs, hs, hD, h1, by simpa [Types.shown, Types.reserved] using h2⟩

/-! ### Violations -/

/-- **C131** is violated: the entry of an attribute which the class declares as non-editable tells that it can be edited. -/
theorem C131_editable_violated {c : String} {sig : Signature V} (hv : sig.Valid) {first : String × Option V} {params : List (String × Option V)}
    (hp : sig.params = first :: params) (hf : first.1 ∈ Types.reserved) (hd : (W.define c).spec = sig.spec) {s : Schema}
    (hs : classSchema W c = .ok s) {ids : String × String} {D : List (Key × V)} (h : classDict W ids c s = .ok D) :
    ∃ vs, Steps D vs ∧ ∀ v ∈ vs, ∃ e, v = .dict e ∧ e.lookup (.str "editable") = some (.bool true) := by
  obtain ⟨⟨vs, h1, h2⟩, -⟩ := C131_partial hv hp hf hd hs h
  refine ⟨vs, h1, ?_⟩
  clear h1
  unfold Shows at h2
  generalize Types.shown params = ps at h2
  induction h2 with
  | nil => intro v hv; simp at hv
  | @cons p v ps vs hpv _ ih =>
    intro w hw
    rcases List.mem_cons.1 hw with rfl | hw
    · obtain ⟨t, e, -, he, -, ht⟩ := hpv
      exact ⟨e, he, ht.editable⟩
    · exact ih w hw

/-- The editable attributes of a form are the parameters shown which the class does not declare as non-editable, in order. -/
theorem C131_editable {c : String} {sig : Signature V} (hv : sig.Valid) {first : String × Option V} {params : List (String × Option V)}
    (hp : sig.params = first :: params) (hf : first.1 ∈ Types.reserved) (hd : (W.define c).spec = sig.spec) {s : Schema}
    (hs : classSchema W c = .ok s) :
    (∀ n, n ∈ editableAttributes W c s ↔ (∃ d, (n, d) ∈ params) ∧ n ∉ Types.reserved ∧ n ∉ (W.define c).nonEditable) ∧
      (editableAttributes W c s).Sublist (params.map Prod.fst) := by
  have hm : Types.memberAttributes (W.define c).spec = .ok (Types.shown params) := by rw [hd]; exact Types.C102_partial hv hp hf
  have hn : s.attributes.map (·.1.name) = (Types.shown params).map Prod.fst := by
    have h := (classSchema_ok hm hs).2
    generalize Types.shown params = ps at h ⊢
    generalize s.attributes = as at h ⊢
    induction h with
    | nil => rfl
    | cons h _ ih => rw [List.map_cons, List.map_cons, ih, h.1]; rfl
  unfold editableAttributes
  rw [hn]
  refine ⟨fun n => ?_, List.filter_sublist.trans (List.filter_sublist.map _)⟩
  simp only [List.mem_filter, List.mem_map, Types.shown, decide_eq_true_eq]
  constructor
  · rintro ⟨⟨⟨m, d⟩, ⟨h1, h2⟩, rfl⟩, h3⟩
    exact ⟨⟨d, h1⟩, h2, h3⟩
  · rintro ⟨⟨d, h1⟩, h2, h3⟩
    exact ⟨⟨(n, d), ⟨h1, h2⟩, rfl⟩, h3⟩

/-- A class declares a non-editable attribute.  Example only. -/
example : ∃ s, classSchema demo "demo.Car" = .ok s ∧ editableAttributes demo "demo.Car" s = ["wheels", "spare", "kind", "name"] := ⟨_, rfl, rfl⟩

/-- The wheels of a car are editable, and its mass is not. -/
example : ∃ s, classSchema demo "demo.Car" = .ok s ∧ "wheels" ∈ editableAttributes demo "demo.Car" s ∧ "mass" ∉ editableAttributes demo "demo.Car" s :=
  have h := C131_editable (W := demo) (c := "demo.Car") carSig_valid (first := ("self", none)) rfl (by decide) rfl (s := _) rfl
  ⟨_, rfl, (h.1 "wheels").2 ⟨⟨none, by simp⟩, by decide, by decide⟩, fun hm => ((h.1 "mass").1 hm).2.2 (by decide)⟩

/-- The wheels of a car are annotated, as its form exists. -/
example : ∃ t, (demo.define "demo.Car").annotations.lookup "wheels" = some t :=
  have h := C131_annotated (W := demo) (c := "demo.Car") carSig_valid (first := ("self", none)) rfl (by decide) rfl (s := _) rfl
    ("wheels", none) (by simp [Types.shown, Types.reserved])
  ⟨h.choose, h.choose_spec.1⟩

/-- **C131** is violated: an optional union, `Optional[Union[A, B]]`, which is `Union[A, B, None]`, has no form. -/
theorem C131_optional_union_violated {a b : List Char} {at_ : Attr} (ha : ObjectClass W (.cls a)) (hb : ObjectClass W (.cls b))
    (hd : at_.default = none) : toDict W (.gen .union [.cls a, .cls b, .noneType]) at_ = .error .attributeError := by
  obtain ⟨n, hn, ha⟩ := ha
  obtain ⟨m, hm, hb⟩ := hb
  cases hn
  cases hm
  simp only [toDict, base, hd, serialized]
  rw [if_neg]
  · simp only [withMore, unionMore, objectNames, objectName, ha, hb]
  · simp [lacks, lacksAll, known, ha, hb]

example : toDict demo (.gen .union [.cls "demo.Wheel".toList, .cls "demo.Car".toList, .noneType]) ⟨"x", none, "", true, ""⟩ = .error .attributeError :=
  C131_optional_union_violated ⟨_, rfl, by decide⟩ ⟨_, rfl, by decide⟩ rfl

/-- **C131** is violated: a list of optional literals, or of optional tuples of any length, has no form, although literals and tuples have one. -/
theorem C131_optional_literal_violated (vs : List (List Char)) (at_ : Attr) :
    toDict W (.gen .list [.optional (.literal vs)]) at_ = .error .notImplemented ∧
    toDict W (.gen .list [.optional (.variadic (.builtin .int))]) at_ = .error .notImplemented := by
  constructor
  · simp only [toDict, listForm, fileRelated, fileAny, base, serialized]
    rw [if_neg (by simp [lacks, lacksAll])]
    simp only [withMore]
  · simp only [toDict, listForm, fileRelated, fileAny, base, serialized]
    rw [if_neg (by simp [lacks, lacksAll])]
    simp only [withMore]

example : ∃ v, toDict demo (.optional (.literal ["a".toList, "b".toList])) ⟨"x", none, "", true, ""⟩ = .ok v := ⟨_, rfl⟩

/-- **C131** is violated: an argument `Optional[Type[A]]` whose default is None has no form. -/
theorem C131_class_default_violated {a : Ann} {at_ : Attr} (ha : Known W a) (hd : at_.default = some .none) :
    toDict W (.optional (.gen .type [a])) at_ = .error .attributeError := by
  simp only [toDict, base, serialized]
  rw [if_neg (by simp [lacks, lacksAll, lacks_of_known ha]), hd]
  simp only [withMore, defaultValue, classDefault]

example : toDict demo (.optional (.gen .type [.cls "demo.Wheel".toList])) ⟨"kind", some .none, "", true, ""⟩ = .error .attributeError :=
  C131_class_default_violated wheel_shown.known rfl

end DC.Sch
