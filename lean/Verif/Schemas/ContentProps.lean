import Verif.Schemas.CheckProps
/-
Property C131: what the form asks for, from the annotation.
-/
namespace DC.Sch

open DC.Types (Ann Gen Builtin Signature)

set_option linter.unusedSectionVars false
set_option linter.unusedSimpArgs false

variable {W : Classes}

/-! ### Specification -/

/-- The form `v` has the value `x` for the key `k`. -/
def Has (v : V) (k : String) (x : V) : Prop := ∃ e, v = .dict e ∧ e.lookup (.str k) = some x

/-- What a JSON schema calls a builtin type. -/
def jsonType : Builtin → String
  | .int => "number"
  | .float => "number"
  | .bool => "boolean"
  | .str => "string"

/-- What is asked for a class: the unit of a measure, a file, or an object of the class. -/
def AsksClass (W : Classes) (n : String) (v : V) : Prop :=
  match W.family n with
  | .measure => Has v "type" (.str "number") ∧ Has v "siUnit" (.str (W.unit n))
  | .file => Has v "isFile" (.bool true)
  | .object => Has v "type" (.str "object") ∧ Has v "classes" (.list [.str n]) ∧ Has v "standaloneInDb" (.bool (W.info n).standalone)
  | _ => True

/-- Which of the lists of a class a method, an attribute or a view is taken from. -/
def SourceOf : Gen → String → Prop
  | .method, s => s = "methods"
  | .classMethod, s => s = "class_methods"
  | .attr, s => s = "attributes"
  | .classAttr, s => s = "class_attributes"
  | .cadView, s => s = "view_selectors"
  | .plotData, s => s = "view_selectors"
  | .markdown, s => s = "view_selectors"
  | _, _ => False

mutual
/-- A file is asked for in the annotation. -/
def AsksFile (W : Classes) : Ann → Prop
  | .cls n => W.family (String.ofList n) = .file
  | .gen _ as => AsksFiles W as
  | .variadic t => AsksFile W t
  | .optional (.gen _ as) => AsksFiles W as
  | _ => False
/-- A file is asked for in one of the annotations. -/
def AsksFiles (W : Classes) : List Ann → Prop
  | [] => False
  | a :: as => AsksFile W a ∨ AsksFiles W as
end

/-- What a list of annotations within `ts` shows: several files, or a sequence. -/
def AsksList (W : Classes) (ts : List Ann) (v : V) : Prop :=
  Has v "type" (.str "array") ∧ (AsksFiles W ts → Has v "formType" (.str "multiple_files")) ∧
    (¬ AsksFiles W ts → Has v "formType" (.str "homogeneous_sequence"))

/-- The classes to choose from: either all in the database, or all not, or some of them. -/
def AsksUnion (W : Classes) (ts : List Ann) (v : V) : Prop :=
  ∃ ns : List (List Char), ts = ns.map .cls ∧ Has v "classes" (.list (ns.map fun n => .str (String.ofList n))) ∧
    ∃ b, Has v "standaloneInDb" b ∧ ∀ c, b = .bool c → ∀ n ∈ ns, (W.info (String.ofList n)).standalone = c

/-- A class is asked for, by its name. -/
def AsksForClass (v : V) : Prop :=
  Has v "type" (.str "object") ∧ Has v "isClass" (.bool true) ∧ Has v "properties" (.dict [(.str "name", .dict [(.str "type", .str "string")])])

mutual
/-- The form `v` asks for a value of the annotation. -/
def Asks (W : Classes) : Ann → V → Prop
  | .optional t, v => Asks W t v
  | .builtin b, v => Has v "type" (.str (jsonType b))
  | .any, _ => True
  | .noneType, _ => True
  | .type, v => AsksForClass v
  | .literal vs, v => Has v "type" (.str "string") ∧ Has v "allowedValues" (.tuple (vs.map fun x => .str (String.ofList x)))
  | .cls n, v => AsksClass W (String.ofList n) v
  | .variadic t, v => Has v "type" (.str "array") ∧ Has v "additionalItems" (.bool true) ∧ ∃ u, Has v "items" (.list [u]) ∧ Asks W t u
  | .gen .tuple ts, v => Has v "type" (.str "array") ∧ Has v "additionalItems" (.bool false) ∧ ∃ us, Has v "items" (.list us) ∧ AsksAll W ts us
  | .gen .list (t :: ts), v => AsksList W (t :: ts) v ∧ ∃ u, Has v "items" u ∧ Asks W t u
  | .gen .iterator (t :: ts), v => AsksList W (t :: ts) v ∧ ∃ u, Has v "items" u ∧ Asks W t u
  | .gen .dict [_, t], v => Has v "type" (.str "object") ∧ ∃ u, Has v "patternProperties" (.dict [(.str ".*", u)]) ∧ Asks W t u
  | .gen .union ts, v => Has v "type" (.str "object") ∧ AsksUnion W ts v
  | .gen .instanceOf (t :: _), v => Has v "type" (.str "object") ∧ ∃ n, t = .cls n ∧ Has v "instanceOf" (.str (String.ofList n))
  | .gen .type (_ :: _), v => AsksForClass v
  | .gen g (_ :: _), v => Has v "isAttribute" (.bool true) ∧ ∃ s, SourceOf g s ∧ Has v "attributeType" (.str s)
  | _, _ => False
/-- Each form asks for a value of the annotation of the same rank. -/
def AsksAll (W : Classes) : List Ann → List V → Prop
  | [], vs => vs = []
  | t :: ts, vs => ∃ u us, vs = u :: us ∧ Asks W t u ∧ AsksAll W ts us
end

/-! ### Proofs -/

theorem lookup_dictUpdate_mem {e : List (Key × V)} {k : Key} {x : V} : ∀ {f : List (Key × V)}, (f.map (·.1)).Nodup → (k, x) ∈ f →
    (dictUpdate e f).lookup k = some x := by
  intro f
  induction f generalizing e with
  | nil => intro _ h; simp at h
  | cons y f ih =>
    intro hn h
    have hd : dictUpdate e (y :: f) = dictUpdate (dictSet e y.1 y.2) f := rfl
    rw [List.map_cons, List.nodup_cons] at hn
    rw [hd]
    rcases List.mem_cons.1 h with rfl | h
    · rw [lookup_dictUpdate_ne fun z hz hk => hn.1 (List.mem_map.2 ⟨z, hz, hk⟩), lookup_dictSet_self]
    · exact ih hn.2 h

theorem withMore_has {c m : Except PyErr (List (Key × V))} {v : V} (h : withMore c m = .ok v) {f : List (Key × V)} (hm : m = .ok f)
    (hn : (f.map (·.1)).Nodup) {k : String} {x : V} (hk : (Key.str k, x) ∈ f) : Has v k x := by
  obtain ⟨e, f', -, hf, rfl⟩ := withMore_ok h
  rw [hm] at hf
  simp only [Except.ok.injEq] at hf
  subst hf
  exact ⟨_, rfl, lookup_dictUpdate_mem hn hk⟩

theorem base_form {a : Ann} {form : Except PyErr String} {at_ : Attr} {e : List (Key × V)} (h : base W a form at_ = .ok e) :
    ∃ f, form = .ok f ∧ e.lookup (.str "formType") = some (.str f) := by
  unfold base serialized at h
  by_cases hl : lacks W a = true
  · rw [if_pos hl] at h; simp at h
  · rw [if_neg hl] at h
    dsimp only at h
    cases form with
    | error e => simp at h
    | ok f =>
      refine ⟨f, rfl, ?_⟩
      dsimp only at h
      cases hd : at_.default with
      | none =>
        rw [hd] at h
        simp only [Except.ok.injEq] at h
        subst h
        rfl
      | some v =>
        rw [hd] at h
        dsimp only at h
        cases hv : defaultValue W a (some v) with
        | error e => rw [hv] at h; simp at h
        | ok d =>
          rw [hv] at h
          simp only [Except.ok.injEq] at h
          subst h
          rfl

mutual
theorem fileRelated_iff : ∀ {a : Ann} {b : Bool}, fileRelated W a = .ok b → (b = true ↔ AsksFile W a)
  | .cls n, b, h => by
    simp only [fileRelated, Except.ok.injEq] at h
    subst h
    simp [AsksFile]
  | .gen _ as, b, h => by
    simp only [fileRelated] at h
    simp only [AsksFile]
    exact fileAny_iff h
  | .variadic t, b, h => by
    simp only [fileRelated] at h
    simp only [AsksFile]
    exact fileRelated_iff h
  | .optional (.gen _ as), b, h => by
    simp only [fileRelated] at h
    simp only [AsksFile]
    exact fileAny_iff h
  | .optional (.variadic _), b, h => by simp [fileRelated] at h
  | .optional (.literal _), b, h => by simp [fileRelated] at h
  | .optional (.builtin _), b, h => by simp only [fileRelated, Except.ok.injEq] at h; subst h; simp [AsksFile]
  | .optional .any, b, h => by simp only [fileRelated, Except.ok.injEq] at h; subst h; simp [AsksFile]
  | .optional .noneType, b, h => by simp only [fileRelated, Except.ok.injEq] at h; subst h; simp [AsksFile]
  | .optional .type, b, h => by simp only [fileRelated, Except.ok.injEq] at h; subst h; simp [AsksFile]
  | .optional (.cls _), b, h => by simp only [fileRelated, Except.ok.injEq] at h; subst h; simp [AsksFile]
  | .optional (.optional _), b, h => by simp only [fileRelated, Except.ok.injEq] at h; subst h; simp [AsksFile]
  | .builtin _, b, h => by simp only [fileRelated, Except.ok.injEq] at h; subst h; simp [AsksFile]
  | .any, b, h => by simp only [fileRelated, Except.ok.injEq] at h; subst h; simp [AsksFile]
  | .noneType, b, h => by simp only [fileRelated, Except.ok.injEq] at h; subst h; simp [AsksFile]
  | .type, b, h => by simp only [fileRelated, Except.ok.injEq] at h; subst h; simp [AsksFile]
  | .literal _, b, h => by simp only [fileRelated, Except.ok.injEq] at h; subst h; simp [AsksFile]
theorem fileAny_iff : ∀ {as : List Ann} {b : Bool}, fileAny W as = .ok b → (b = true ↔ AsksFiles W as)
  | [], b, h => by
    simp only [fileAny, Except.ok.injEq] at h
    subst h
    simp [AsksFiles]
  | a :: as, b, h => by
    simp only [fileAny] at h
    simp only [AsksFiles]
    cases ha : fileRelated W a with
    | error e => rw [ha] at h; simp at h
    | ok c =>
      have h1 := fileRelated_iff ha
      rw [ha] at h
      cases c with
      | true =>
        simp only [Except.ok.injEq] at h
        subst h
        exact ⟨fun _ => .inl (h1.1 rfl), fun _ => rfl⟩
      | false =>
        have h2 := fileAny_iff (as := as) h
        rw [h2]
        constructor
        · exact .inr
        · rintro (h3 | h3)
          · exact absurd (h1.2 h3) (by simp)
          · exact h3
end

theorem asksList {g : Gen} {ts : List Ann} {at_ : Attr} {items : Except PyErr V} {v : V}
    (h : withMore (base W (.gen g ts) (listForm W (.gen g ts)) at_) (itemsMore items) = .ok v) :
    AsksList W ts v ∧ ∃ u, items = .ok u ∧ Has v "items" u := by
  cases items with
  | error e =>
    obtain ⟨e', f, -, hf, -⟩ := withMore_ok h
    simp [itemsMore] at hf
  | ok u =>
    have hn : (([(.str "type", .str "array"), (.str "items", u)] : List (Key × V)).map (·.1)).Nodup := by
      simp only [List.map_cons, List.map_nil]; decide
    refine ⟨⟨withMore_has h rfl hn (by simp), ?_⟩, u, rfl, withMore_has h rfl hn (by simp)⟩
    obtain ⟨e, f, he, hf, rfl⟩ := withMore_ok h
    simp only [itemsMore, Except.ok.injEq] at hf
    obtain ⟨form, hform, hlook⟩ := base_form he
    have hk : (dictUpdate e f).lookup (.str "formType") = some (.str form) := by
      rw [← hf, lookup_dictUpdate_ne, hlook]
      simp
    unfold listForm at hform
    simp only [fileRelated] at hform
    cases hb : fileAny W ts with
    | error e => rw [hb] at hform; simp at hform
    | ok b =>
      have h1 := fileAny_iff hb
      rw [hb] at hform
      cases b with
      | true =>
        simp only [Except.ok.injEq] at hform
        subst hform
        exact ⟨fun _ => ⟨_, rfl, hk⟩, fun hno => absurd (h1.1 rfl) hno⟩
      | false =>
        simp only [Except.ok.injEq] at hform
        subst hform
        exact ⟨fun hyes => absurd (h1.2 hyes) (by simp), fun _ => ⟨_, rfl, hk⟩⟩

theorem asksUnion {c : Except PyErr (List (Key × V))} {ts : List Ann} {v : V} (h : withMore c (unionMore W ts) = .ok v) :
    Has v "type" (.str "object") ∧ AsksUnion W ts v := by
  unfold unionMore at h
  cases ho : objectNames W ts with
  | error e =>
    rw [ho] at h
    obtain ⟨e', f, -, hf, -⟩ := withMore_ok h
    simp at hf
  | ok ns =>
    rw [ho] at h
    dsimp only at h
    obtain ⟨h1, -⟩ := objectNames_eq ho
    have hn : (([(.str "type", .str "object"), (.str "classes", .list (ns.map .str)), (.str "standaloneInDb", unionStandalone W ns)] :
      List (Key × V)).map (·.1)).Nodup := by simp only [List.map_cons, List.map_nil]; decide
    refine ⟨withMore_has h rfl hn (by simp), ns.map String.toList, by rw [h1, List.map_map]; rfl, ?_, unionStandalone W ns,
      withMore_has h rfl hn (by simp), ?_⟩
    · have := withMore_has h rfl hn (k := "classes") (x := .list (ns.map .str)) (by simp)
      simpa [List.map_map, Function.comp_def] using this
    · intro c hc n hn'
      obtain ⟨m, hm, rfl⟩ := List.mem_map.1 hn'
      rw [String.ofList_toList]
      unfold unionStandalone at hc
      by_cases h2 : (ns.all fun n => (W.info n).standalone) = true
      · rw [if_pos h2] at hc
        simp only [V.bool.injEq] at hc
        rw [← hc]
        simp only [List.all_eq_true] at h2
        exact h2 m hm
      · rw [if_neg h2] at hc
        by_cases h3 : (!ns.any fun n => (W.info n).standalone) = true
        · rw [if_pos h3] at hc
          simp only [V.bool.injEq] at hc
          rw [← hc]
          simp only [Bool.not_eq_true', List.any_eq_false, Bool.not_eq_true] at h3
          exact h3 m hm
        · rw [if_neg h3] at hc
          simp at hc

theorem asksForClass {c : Except PyErr (List (Key × V))} {v : V} (h : withMore c (.ok classMore) = .ok v) : AsksForClass v := by
  have hn : (classMore.map (·.1)).Nodup := by simp only [classMore, List.map_cons, List.map_nil]; decide
  exact ⟨withMore_has h rfl hn (by simp [classMore]), withMore_has h rfl hn (by simp [classMore]), withMore_has h rfl hn (by simp [classMore])⟩

theorem asksAttr {c : Except PyErr (List (Key × V))} {g : Gen} {t : Ann} {at_ : Attr} {v : V} (hg : IsAttr g)
    (h : withMore c (attrMore W g t at_) = .ok v) : Has v "isAttribute" (.bool true) ∧ ∃ s, SourceOf g s ∧ Has v "attributeType" (.str s) := by
  unfold attrMore at h
  cases hc : withMore (base W (.gen .type [t]) (.ok "class") (classSchemaAttr at_ t)) (.ok classMore) with
  | error e =>
    rw [hc] at h
    obtain ⟨e', f, -, hf, -⟩ := withMore_ok h
    simp at hf
  | ok u =>
    rw [hc] at h
    dsimp only at h
    refine ⟨withMore_has h rfl ?_ (by simp), attributeType g, ?_, withMore_has h rfl ?_ (by simp)⟩
    · cases g <;> (simp only [decorator, List.map_cons, List.map_nil, List.cons_append, List.nil_append]; decide)
    · cases g <;> first | exact hg.elim | rfl
    · cases g <;> (simp only [decorator, List.map_cons, List.map_nil, List.cons_append, List.nil_append]; decide)

mutual
/-- The form of a parameter asks for a value of its annotation: the form of a list or a tuple holds those of its elements, of a union the
names of its classes, and so on.  Missing for the full property: see `C131_partial`. -/
theorem C131_content_partial : ∀ {a : Ann} {at_ : Attr} {v : V}, toDict W a at_ = .ok v → Asks W a v
  | .optional t, at_, v, h => by
    simp only [toDict] at h
    simp only [Asks]
    exact C131_content_partial h
  | .builtin b, at_, v, h => by
    simp only [toDict] at h
    simp only [Asks]
    refine withMore_has h rfl (by simp only [List.map_cons, List.map_nil]; decide) ?_
    cases b <;> simp [jsonType, equivalence]
  | .any, _, _, _ => by simp only [Asks]
  | .noneType, _, _, _ => by simp only [Asks]
  | .type, at_, v, h => by
    simp only [toDict] at h
    simp only [Asks]
    exact asksForClass h
  | .literal _, at_, v, h => by
    simp only [toDict] at h
    simp only [Asks]
    exact ⟨withMore_has h rfl (by simp only [List.map_cons, List.map_nil]; decide) (by simp),
      withMore_has h rfl (by simp only [List.map_cons, List.map_nil]; decide) (by simp)⟩
  | .cls n, at_, v, h => by
    simp only [toDict, clsForm] at h
    simp only [Asks, AsksClass]
    cases hf : W.family (String.ofList n) with
    | measure =>
      rw [hf] at h
      exact ⟨withMore_has h rfl (by simp only [List.map_cons, List.map_nil]; decide) (by simp),
        withMore_has h rfl (by simp only [List.map_cons, List.map_nil]; decide) (by simp)⟩
    | file =>
      rw [hf] at h
      exact withMore_has h rfl (by simp only [List.map_cons, List.map_nil]; decide) (by simp)
    | object =>
      rw [hf] at h
      have hn : ((customMore W (String.ofList n)).map (·.1)).Nodup := by simp only [customMore, List.map_cons, List.map_nil]; decide
      exact ⟨withMore_has h rfl hn (by simp [customMore]), withMore_has h rfl hn (by simp [customMore]),
        withMore_has h rfl hn (by simp [customMore])⟩
    | display => trivial
    | text => trivial
    | other => trivial
  | .variadic t, at_, v, h => by
    simp only [toDict] at h
    simp only [Asks]
    cases ht : toDict W t (at_.sub W 0) with
    | error e =>
      rw [ht] at h
      obtain ⟨e', f, -, hf, -⟩ := withMore_ok h
      simp [tupleMore] at hf
    | ok u =>
      rw [ht] at h
      have hn : (([(.str "type", .str "array"), (.str "additionalItems", .bool true), (.str "items", .list [u])] :
        List (Key × V)).map (·.1)).Nodup := by simp only [List.map_cons, List.map_nil]; decide
      exact ⟨withMore_has h rfl hn (by simp), withMore_has h rfl hn (by simp), u, withMore_has h rfl hn (by simp), C131_content_partial ht⟩
  | .gen .tuple ts, at_, v, h => by
    simp only [toDict] at h
    simp only [Asks]
    cases ht : toDicts W at_ 0 ts with
    | error e =>
      rw [ht] at h
      obtain ⟨e', f, -, hf, -⟩ := withMore_ok h
      simp [tupleMore] at hf
    | ok us =>
      rw [ht] at h
      have hn : (([(.str "type", .str "array"), (.str "additionalItems", .bool false), (.str "items", .list us)] :
        List (Key × V)).map (·.1)).Nodup := by simp only [List.map_cons, List.map_nil]; decide
      exact ⟨withMore_has h rfl hn (by simp), withMore_has h rfl hn (by simp), us, withMore_has h rfl hn (by simp), asksAll ht⟩
  | .gen .list [], _, _, h => by simp [toDict] at h
  | .gen .list (t :: ts), at_, v, h => by
    simp only [toDict] at h
    simp only [Asks]
    obtain ⟨h1, u, hu, h2⟩ := asksList h
    exact ⟨h1, u, h2, C131_content_partial hu⟩
  | .gen .iterator [], _, _, h => by simp [toDict] at h
  | .gen .iterator (t :: ts), at_, v, h => by
    simp only [toDict] at h
    simp only [Asks]
    obtain ⟨h1, u, hu, h2⟩ := asksList h
    exact ⟨h1, u, h2, C131_content_partial hu⟩
  | .gen .dict [], _, _, h => by simp [toDict] at h
  | .gen .dict [k], _, _, h => by simp [toDict] at h
  | .gen .dict [k, w], at_, v, h => by
    simp only [toDict] at h
    simp only [Asks]
    cases hd : dictTests [k, w] with
    | error e => rw [hd] at h; simp at h
    | ok _ =>
      rw [hd] at h
      dsimp only at h
      cases ht : toDict W w (at_.sub W 1) with
      | error e =>
        rw [ht] at h
        obtain ⟨e', f, -, hf, -⟩ := withMore_ok h
        simp [patternMore] at hf
      | ok u =>
        rw [ht] at h
        have hn : (([(.str "type", .str "object"), (.str "patternProperties", .dict [(.str ".*", u)])] : List (Key × V)).map (·.1)).Nodup := by
          simp only [List.map_cons, List.map_nil]; decide
        exact ⟨withMore_has h rfl hn (by simp), u, withMore_has h rfl hn (by simp), C131_content_partial ht⟩
  | .gen .dict (_ :: _ :: _ :: _), _, _, h => by simp [toDict] at h
  | .gen .union ts, at_, v, h => by
    simp only [toDict] at h
    simp only [Asks]
    exact asksUnion h
  | .gen .instanceOf [], _, _, h => by simp [toDict] at h
  | .gen .instanceOf (t :: ts), at_, v, h => by
    simp only [toDict, instanceMore] at h
    simp only [Asks]
    cases ho : objectName W t with
    | error e =>
      rw [ho] at h
      obtain ⟨e', f, -, hf, -⟩ := withMore_ok h
      simp at hf
    | ok c =>
      rw [ho] at h
      dsimp only at h
      have hn : (([(.str "type", .str "object"), (.str "instanceOf", .str c), (.str "classes", .list [.str c]),
        (.str "standaloneInDb", .bool (W.info c).standalone)] : List (Key × V)).map (·.1)).Nodup := by
        simp only [List.map_cons, List.map_nil]; decide
      refine ⟨withMore_has h rfl hn (by simp), c.toList, ?_, ?_⟩
      · have := (objectNames_eq (W := W) (ts := [t]) (ns := [c]) (by simp only [objectNames, ho])).1
        simpa using this
      · rw [String.ofList_toList]
        exact withMore_has h rfl hn (by simp)
  | .gen .type [], _, _, h => by simp [toDict] at h
  | .gen .type (t :: ts), at_, v, h => by
    simp only [toDict] at h
    simp only [Asks]
    exact asksForClass h
  | .gen .subclass _, _, _, h => by simp [toDict] at h
  | .gen .method [], _, _, h => by simp [toDict] at h
  | .gen .classMethod [], _, _, h => by simp [toDict] at h
  | .gen .attr [], _, _, h => by simp [toDict] at h
  | .gen .classAttr [], _, _, h => by simp [toDict] at h
  | .gen .cadView [], _, _, h => by simp [toDict] at h
  | .gen .plotData [], _, _, h => by simp [toDict] at h
  | .gen .markdown [], _, _, h => by simp [toDict] at h
  | .gen .method (t :: ts), at_, v, h => by simp only [toDict] at h; simp only [Asks]; exact asksAttr (g := .method) trivial h
  | .gen .classMethod (t :: ts), at_, v, h => by simp only [toDict] at h; simp only [Asks]; exact asksAttr (g := .classMethod) trivial h
  | .gen .attr (t :: ts), at_, v, h => by simp only [toDict] at h; simp only [Asks]; exact asksAttr (g := .attr) trivial h
  | .gen .classAttr (t :: ts), at_, v, h => by simp only [toDict] at h; simp only [Asks]; exact asksAttr (g := .classAttr) trivial h
  | .gen .cadView (t :: ts), at_, v, h => by simp only [toDict] at h; simp only [Asks]; exact asksAttr (g := .cadView) trivial h
  | .gen .plotData (t :: ts), at_, v, h => by simp only [toDict] at h; simp only [Asks]; exact asksAttr (g := .plotData) trivial h
  | .gen .markdown (t :: ts), at_, v, h => by simp only [toDict] at h; simp only [Asks]; exact asksAttr (g := .markdown) trivial h
theorem asksAll : ∀ {ts : List Ann} {at_ : Attr} {i : Nat} {vs : List V}, toDicts W at_ i ts = .ok vs → AsksAll W ts vs
  | [], _, _, vs, h => by
    simp only [toDicts, Except.ok.injEq] at h
    simp only [AsksAll]
    exact h.symm
  | t :: ts, at_, i, vs, h => by
    simp only [toDicts] at h
    simp only [AsksAll]
    cases hu : toDict W t (at_.sub W i) with
    | error e => rw [hu] at h; simp at h
    | ok u =>
      rw [hu] at h
      dsimp only at h
      cases hr : toDicts W at_ (i + 1) ts with
      | error e => rw [hr] at h; simp at h
      | ok us =>
        rw [hr] at h
        simp only [Except.ok.injEq] at h
        exact ⟨u, us, h.symm, C131_content_partial hu, asksAll hr⟩
end

/-- A list of pairs of a number and a literal has a form. -/
example : ∃ v, toDict demo (.gen .list [.gen .tuple [.builtin .int, .literal ["a".toList, "b".toList]]]) ⟨"x", none, "", true, ""⟩ = .ok v ∧
    Asks demo (.gen .list [.gen .tuple [.builtin .int, .literal ["a".toList, "b".toList]]]) v := by
  obtain ⟨v, hv⟩ := toDict_of_shown (W := demo) (a := .gen .list [.gen .tuple [.builtin .int, .literal ["a".toList, "b".toList]]])
    (at_ := ⟨"x", none, "", true, ""⟩) (.list (.tuple (by
      intro t ht
      simp only [List.mem_cons, List.not_mem_nil, or_false] at ht
      rcases ht with rfl | rfl
      · exact .builtin
      · exact .literal)) (by simp)) (by simp [Calm, CalmAll, Plain, PlainAll]) (by simp)
  exact ⟨v, hv, C131_content_partial hv⟩

/-- The name under which a class is imported (specification). -/
inductive ClassNamed : Ann → String → Prop
  | int : ClassNamed (.builtin .int) "builtins.int"
  | float : ClassNamed (.builtin .float) "builtins.float"
  | bool : ClassNamed (.builtin .bool) "builtins.bool"
  | str : ClassNamed (.builtin .str) "builtins.str"
  | noneType : ClassNamed .noneType "builtins.NoneType"
  | cls (n : String) : ClassNamed (.cls n.toList) n

/-- The views are told apart by the decorator of their methods (specification). -/
inductive DecoratedBy : Gen → String → Prop
  | cadView : DecoratedBy .cadView "cad_view"
  | plotData : DecoratedBy .plotData "plot_data_view"
  | markdown : DecoratedBy .markdown "markdown_view"

/-- The form of a reference to a method, an attribute or a view of a class asks for a class and a name: the class is the one of the annotation
by default, and there is none for `Type`; it is asked for with its own key and title, and can be edited if the reference can; for a view it tells the decorator.  Missing for the full property: see `C131_partial`. -/
theorem C131_reference_partial {g : Gen} {t : Ann} {ts : List Ann} {at_ : Attr} {v : V} (hg : IsAttr g)
    (h : toDict W (.gen g (t :: ts)) at_ = .ok v) :
    (∃ c, Has v "properties" (.dict [(.str "class_", c), (.str "name", .dict [(.str "type", .str "string")])]) ∧
      AsksForClass c ∧ (∀ n, ClassNamed t n → Has c "defaultValue" (.str n)) ∧
      (t = .type → ∀ x, ¬ Has c "defaultValue" x) ∧
      Has c "key" (.str (at_.name ++ "/class")) ∧ Has c "title" (.str "Class") ∧ Has c "editable" (.bool at_.editable)) ∧
    ∀ d, DecoratedBy g d → Has v "decorator" (.str d) := by
  rw [attr_of hg] at h
  unfold attrMore at h
  cases hc : withMore (base W (.gen .type [t]) (.ok "class") (classSchemaAttr at_ t)) (.ok classMore) with
  | error e =>
    rw [hc] at h
    obtain ⟨e', f, -, hf, -⟩ := withMore_ok h
    simp at hf
  | ok u =>
    rw [hc] at h
    dsimp only at h
    have hd : ∀ x, Has u "defaultValue" x ↔ ∃ w, (classSchemaAttr at_ t).default = some w ∧ defaultValue W (.gen .type [t]) (some w) = .ok x := by
      obtain ⟨e, f, he, hf, rfl⟩ := withMore_ok hc
      simp only [Except.ok.injEq] at hf
      subst hf
      have hl : (dictUpdate e classMore).lookup (.str "defaultValue") = e.lookup (.str "defaultValue") :=
        lookup_dictUpdate_ne (by simp [classMore])
      intro x
      have : Has (.dict (dictUpdate e classMore)) "defaultValue" x ↔ e.lookup (.str "defaultValue") = some x := by
        unfold Has
        constructor
        · rintro ⟨e', he', hx⟩
          simp only [V.dict.injEq] at he'
          rw [← he', hl] at hx
          exact hx
        · exact fun hx => ⟨_, rfl, hl.trans hx⟩
      rw [this]
      unfold base at he
      cases hs : serialized W (.gen .type [t]) with
      | error e => rw [hs] at he; simp at he
      | ok s =>
        rw [hs] at he
        dsimp only at he
        cases hdf : (classSchemaAttr at_ t).default with
        | none =>
          rw [hdf] at he
          simp only [Except.ok.injEq] at he
          subst he
          change (none : Option V) = some x ↔ _
          simp
        | some w =>
          rw [hdf] at he
          dsimp only at he
          cases hdv : defaultValue W (.gen .type [t]) (some w) with
          | error e => rw [hdv] at he; simp at he
          | ok d =>
            rw [hdv] at he
            simp only [Except.ok.injEq] at he
            subst he
            change some d = some x ↔ _
            simp [hdv]
    have hh : Has u "key" (.str (at_.name ++ "/class")) ∧ Has u "title" (.str "Class") ∧ Has u "editable" (.bool at_.editable) := by
      obtain ⟨e, f, he, hf, rfl⟩ := withMore_ok hc
      simp only [Except.ok.injEq] at hf
      subst hf
      have hl : ∀ k, (∀ x ∈ classMore, x.1 ≠ k) → (dictUpdate e classMore).lookup k = e.lookup k := fun k hk => lookup_dictUpdate_ne hk
      have he' : e.lookup (.str "key") = some (.str (at_.name ++ "/class")) ∧ e.lookup (.str "title") = some (.str "Class") ∧
          e.lookup (.str "editable") = some (.bool at_.editable) := by
        unfold base at he
        cases hs : serialized W (.gen .type [t]) with
        | error e => rw [hs] at he; simp at he
        | ok s =>
          rw [hs] at he
          dsimp only at he
          cases hdf : (classSchemaAttr at_ t).default with
          | none =>
            rw [hdf] at he
            simp only [Except.ok.injEq] at he
            subst he
            exact ⟨rfl, rfl, rfl⟩
          | some w =>
            rw [hdf] at he
            dsimp only at he
            cases hdv : defaultValue W (.gen .type [t]) (some w) with
            | error e => rw [hdv] at he; simp at he
            | ok d =>
              rw [hdv] at he
              simp only [Except.ok.injEq] at he
              subst he
              exact ⟨rfl, rfl, rfl⟩
      exact ⟨⟨_, rfl, (hl _ (by simp [classMore])).trans he'.1⟩, ⟨_, rfl, (hl _ (by simp [classMore])).trans he'.2.1⟩,
        ⟨_, rfl, (hl _ (by simp [classMore])).trans he'.2.2⟩⟩
    refine ⟨⟨u, withMore_has h rfl ?_ (by simp), asksForClass hc, fun n hn => ?_, ?_, hh⟩,
      fun d hd => ?_⟩
    · cases g <;> (simp only [decorator, List.map_cons, List.map_nil, List.cons_append, List.nil_append]; decide)
    · refine (hd _).2 ⟨.cls n, ?_, ?_⟩
      · cases hn <;> simp [classSchemaAttr, classValue, className]
      · simp only [defaultValue, classDefault]
    · rintro rfl x hx
      obtain ⟨w, hw, -⟩ := (hd x).1 hx
      simp [classSchemaAttr] at hw
    · refine withMore_has h rfl ?_ ?_
      · cases g <;> (simp only [decorator, List.map_cons, List.map_nil, List.cons_append, List.nil_append]; decide)
      · cases hd <;> simp [decorator]

/-- The widget that shows an annotation (specification). -/
inductive ShownAs (W : Classes) : Ann → String → Prop
  | builtin (b : Builtin) : ShownAs W (.builtin b) (jsonType b)
  | measure {n : List Char} : W.family (String.ofList n) = .measure → ShownAs W (.cls n) "measure"
  | file {n : List Char} : W.family (String.ofList n) = .file → ShownAs W (.cls n) "file"
  | object {n : List Char} : W.family (String.ofList n) = .object → ShownAs W (.cls n) "custom_instance"
  | literal (vs : List (List Char)) : ShownAs W (.literal vs) "string"
  | type : ShownAs W .type "class"
  | typeOf (t : Ann) (ts : List Ann) : ShownAs W (.gen .type (t :: ts)) "class"
  | variadic (t : Ann) : ShownAs W (.variadic t) "heterogeneous_sequence"
  | tuple (ts : List Ann) : ShownAs W (.gen .tuple ts) "heterogeneous_sequence"
  | dict (k t : Ann) : ShownAs W (.gen .dict [k, t]) "dynamic_dict"
  | union (ts : List Ann) : ShownAs W (.gen .union ts) "custom_instance"
  | instanceOf (t : Ann) (ts : List Ann) : ShownAs W (.gen .instanceOf (t :: ts)) "custom_instance"
  | reference {g : Gen} (t : Ann) (ts : List Ann) : IsAttr g → ShownAs W (.gen g (t :: ts)) "attribute"
  | optional {t : Ann} {s : String} : ShownAs W t s → ShownAs W (.optional t) s

theorem withMore_form {a : Ann} {s : String} {at_ : Attr} {m : Except PyErr (List (Key × V))} {v : V} (h : withMore (base W a (.ok s) at_) m = .ok v)
    (hm : ∀ f, m = .ok f → ∀ x ∈ f, x.1 ≠ .str "formType") : Has v "formType" (.str s) := by
  obtain ⟨e, f, he, hf, rfl⟩ := withMore_ok h
  obtain ⟨form, hform, hlook⟩ := base_form he
  cases hform
  exact ⟨_, rfl, (lookup_dictUpdate_ne (hm f hf)).trans hlook⟩

/-- The form of an annotation asks for the widget of its kind.  For lists, see `C131_content_partial`.  Missing for the full property: see `C131_partial`. -/
theorem C131_widget_partial {a : Ann} {s : String} (hs : ShownAs W a s) : ∀ {at_ : Attr} {v : V}, toDict W a at_ = .ok v → Has v "formType" (.str s) := by
  induction hs with
  | builtin b =>
    intro at_ v h
    simp only [toDict] at h
    refine withMore_has h rfl (by simp only [List.map_cons, List.map_nil]; decide) ?_
    cases b <;> simp [equivalence, jsonType]
  | measure hf =>
    intro at_ v h
    simp only [toDict, clsForm, hf] at h
    exact withMore_form h (by rintro f ⟨⟩; simp)
  | file hf =>
    intro at_ v h
    simp only [toDict, clsForm, hf] at h
    exact withMore_form h (by rintro f ⟨⟩; simp)
  | object hf =>
    intro at_ v h
    simp only [toDict, clsForm, hf] at h
    exact withMore_form h (by rintro f ⟨⟩; simp [customMore])
  | literal vs =>
    intro at_ v h
    simp only [toDict] at h
    exact withMore_form h (by rintro f ⟨⟩; simp)
  | type =>
    intro at_ v h
    simp only [toDict] at h
    exact withMore_form h (by rintro f ⟨⟩; simp [classMore])
  | typeOf t ts =>
    intro at_ v h
    simp only [toDict] at h
    exact withMore_form h (by rintro f ⟨⟩; simp [classMore])
  | variadic t =>
    intro at_ v h
    simp only [toDict] at h
    refine withMore_form h fun f hf => ?_
    simp only [tupleMore] at hf
    split at hf
    · cases hf
    · cases hf
      simp
  | tuple ts =>
    intro at_ v h
    simp only [toDict] at h
    refine withMore_form h fun f hf => ?_
    simp only [tupleMore] at hf
    split at hf
    · cases hf
    · cases hf
      simp
  | dict k t =>
    intro at_ v h
    simp only [toDict] at h
    split at h
    · cases h
    · refine withMore_form h fun f hf => ?_
      simp only [patternMore] at hf
      split at hf
      · cases hf
      · cases hf
        simp
  | union ts =>
    intro at_ v h
    simp only [toDict] at h
    refine withMore_form h fun f hf => ?_
    simp only [unionMore] at hf
    split at hf
    · cases hf
    · cases hf
      simp
  | instanceOf t ts =>
    intro at_ v h
    simp only [toDict] at h
    refine withMore_form h fun f hf => ?_
    simp only [instanceMore] at hf
    split at hf
    · cases hf
    · cases hf
      simp
  | @reference g t ts hg =>
    intro at_ v h
    rw [attr_of hg] at h
    refine withMore_form h fun f hf => ?_
    simp only [attrMore] at hf
    split at hf
    · cases hf
    · cases hf
      cases g <;> simp [decorator]
  | optional _ ih =>
    intro at_ v h
    simp only [toDict] at h
    exact ih h

/-- The widget of an optional mass. -/
example : ∃ v, toDict demo (.optional (.cls "demo.Mass".toList)) ⟨"x", none, "", true, ""⟩ = .ok v ∧ Has v "formType" (.str "measure") := by
  obtain ⟨v, hv⟩ : ∃ v, toDict demo (.optional (.cls "demo.Mass".toList)) ⟨"x", none, "", true, ""⟩ = .ok v := ⟨_, rfl⟩
  exact ⟨v, hv, C131_widget_partial (.optional (.measure rfl)) hv⟩

/-- The form of an attribute of a class of the user. -/
example : ∃ v, toDict demo (.gen .attr [.cls "demo.Wheel".toList]) ⟨"x", none, "", true, ""⟩ = .ok v ∧
    ∃ c, Has v "properties" (.dict [(.str "class_", c), (.str "name", .dict [(.str "type", .str "string")])]) ∧
      Has c "defaultValue" (.str "demo.Wheel") := by
  obtain ⟨v, hv⟩ : ∃ v, toDict demo (.gen .attr [.cls "demo.Wheel".toList]) ⟨"x", none, "", true, ""⟩ = .ok v := ⟨_, rfl⟩
  obtain ⟨⟨c, h1, -, h2, -, -⟩, -⟩ := C131_reference_partial (W := demo) (by trivial) hv
  exact ⟨v, hv, c, h1, h2 _ (.cls _)⟩

/-- The attribute of the item of rank `i`: its name and its title are followed by its rank, it has no default value, and it can be edited if
the whole can be. -/
def itemAttr (W : Classes) (at_ : Attr) (i : Nat) : Attr := ⟨at_.name ++ "/" ++ toString i, none, titleOf W at_ ++ "/" ++ toString i, at_.editable, ""⟩

theorem sub_item (at_ : Attr) (i : Nat) : at_.sub W i = itemAttr W at_ i := by
  unfold Attr.sub itemAttr
  rw [label_title]

theorem toDicts_tells {at_ : Attr} : ∀ {ts : List Ann} {k : Nat} {us : List V}, toDicts W at_ k ts = .ok us → us.length = ts.length ∧
    ∀ (i : Nat) t, ts[i]? = some t → ∃ e, us[i]? = some (.dict e) ∧ Tells W t (itemAttr W at_ (k + i)) e
  | [], k, us, h => by
    simp only [toDicts, Except.ok.injEq] at h
    subst h
    simp
  | t :: ts, k, us, h => by
    simp only [toDicts] at h
    split at h
    · cases h
    · rename_i v hv
      split at h
      · cases h
      · rename_i vs hvs
        cases h
        obtain ⟨h1, h2⟩ := toDicts_tells hvs
        refine ⟨by simp [h1], fun i u hu => ?_⟩
        cases i with
        | zero =>
          simp only [List.getElem?_cons_zero, Option.some.injEq] at hu
          subst hu
          obtain ⟨e, rfl, he⟩ := toDict_tells hv
          exact ⟨e, by simp, by rw [Nat.add_zero, ← sub_item]; exact he⟩
        | succ i =>
          obtain ⟨e, h3, h4⟩ := h2 i u (by simpa using hu)
          exact ⟨e, by simpa using h3, by rw [show k + (i + 1) = k + 1 + i by omega]; exact h4⟩

/-- The items of a sequence are told in its form with their own name and title, which end with their rank: one for a list, of rank 0, and one
for each element of a tuple, in order; the value of a dictionary has rank 1. -/
theorem C131_items {at_ : Attr} {v : V} :
    (∀ g t ts, g = .list ∨ g = .iterator → toDict W (.gen g (t :: ts)) at_ = .ok v → ∃ e, Has v "items" (.dict e) ∧ Tells W t (itemAttr W at_ 0) e) ∧
    (∀ ts, toDict W (.gen .tuple ts) at_ = .ok v → ∃ us, Has v "items" (.list us) ∧ us.length = ts.length ∧
      ∀ (i : Nat) t, ts[i]? = some t → ∃ e, us[i]? = some (.dict e) ∧ Tells W t (itemAttr W at_ i) e) ∧
    (∀ k t, toDict W (.gen .dict [k, t]) at_ = .ok v → ∃ e, Has v "patternProperties" (.dict [(.str ".*", .dict e)]) ∧ Tells W t (itemAttr W at_ 1) e) := by
  have items : ∀ {c : Except PyErr (List (Key × V))} {t : Ann}, withMore c (itemsMore (toDict W t (at_.sub W 0))) = .ok v →
      ∃ e, Has v "items" (.dict e) ∧ Tells W t (itemAttr W at_ 0) e := by
    intro c t h
    obtain ⟨e, f, -, hf, rfl⟩ := withMore_ok h
    simp only [itemsMore] at hf
    split at hf
    · cases hf
    · rename_i u hu
      cases hf
      obtain ⟨e', rfl, he⟩ := toDict_tells hu
      exact ⟨e', ⟨_, rfl, lookup_dictUpdate_mem (by simp) (by simp)⟩, by rw [← sub_item]; exact he⟩
  refine ⟨?_, fun ts h => ?_, fun k t h => ?_⟩
  · rintro g t ts (rfl | rfl) h <;> simp only [toDict] at h <;> exact items h
  · simp only [toDict] at h
    obtain ⟨e, f, -, hf, rfl⟩ := withMore_ok h
    simp only [tupleMore] at hf
    split at hf
    · cases hf
    · rename_i us hus
      cases hf
      obtain ⟨h1, h2⟩ := toDicts_tells hus
      refine ⟨us, ⟨_, rfl, lookup_dictUpdate_mem (by simp) (by simp)⟩, h1, fun i t ht => ?_⟩
      have := h2 i t ht
      rwa [Nat.zero_add] at this
  · simp only [toDict] at h
    split at h
    · cases h
    · obtain ⟨e, f, -, hf, rfl⟩ := withMore_ok h
      simp only [patternMore] at hf
      split at hf
      · cases hf
      · rename_i u hu
        cases hf
        obtain ⟨e', rfl, he⟩ := toDict_tells hu
        exact ⟨e', ⟨_, rfl, lookup_dictUpdate_mem (by simp) (by simp)⟩, by rw [← sub_item]; exact he⟩

/-- A case of `C131_items`: a tuple of a number and a list of texts. -/
example : ∃ v, toDict demo (.gen .tuple [.builtin .int, .gen .list [.builtin .str]]) ⟨"x", none, "Size", true, ""⟩ = .ok v ∧
    ∃ us e, Has v "items" (.list us) ∧ us[1]? = some (.dict e) ∧ e.lookup (.str "title") = some (.str "Size/1") := by
  obtain ⟨v, hv⟩ : ∃ v, toDict demo (.gen .tuple [.builtin .int, .gen .list [.builtin .str]]) ⟨"x", none, "Size", true, ""⟩ = .ok v := ⟨_, rfl⟩
  obtain ⟨us, h1, -, h2⟩ := (C131_items (W := demo)).2.1 _ hv
  obtain ⟨e, h3, h4⟩ := h2 1 _ rfl
  exact ⟨v, hv, us, e, h1, h3, by rw [h4.title]; rfl⟩

end DC.Sch
