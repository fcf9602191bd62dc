import Verif.Schemas.Model
import Verif.Schemas.DocstringProps
import Verif.Types.ArgsProps
import Verif.Values.PathsLemmas
/-
Property C131: the form of a class.
-/
namespace DC.Sch

open DC.Types (Ann Gen Builtin)

set_option linter.unusedSectionVars false
set_option linter.unusedSimpArgs false

variable {W : Classes}

/-! ### Specification -/

/-- A class of which instances can be asked for: a measure, a file, an object or a display. -/
def KnownClass (W : Classes) (n : List Char) : Prop := W.family (String.ofList n) ≠ .text ∧ W.family (String.ofList n) ≠ .other

/-- A class of objects. -/
def ObjectClass (W : Classes) (a : Ann) : Prop := ∃ n, a = .cls n ∧ W.family (String.ofList n) = .object

/-- The classes in an annotation are known, there is no Subclass in it, and generic types have arguments. -/
inductive Known (W : Classes) : Ann → Prop
  | builtin {b} : Known W (.builtin b)
  | any : Known W .any
  | noneType : Known W .noneType
  | type : Known W .type
  | literal {vs} : Known W (.literal vs)
  | cls {n} : KnownClass W n → Known W (.cls n)
  | optional {t} : Known W t → Known W (.optional t)
  | variadic {t} : Known W t → Known W (.variadic t)
  | emptyTuple : Known W (.gen .tuple [])
  | gen {g a as} : g ≠ .subclass → Known W a → (∀ t ∈ as, Known W t) → Known W (.gen g (a :: as))

/-- The types of methods, attributes and views. -/
def IsAttr : Gen → Prop
  | .method | .classMethod | .attr | .classAttr | .cadView | .plotData | .markdown => True
  | _ => False

/-- The annotations with a form: a dictionary goes from str to a builtin type, a union holds classes of objects only, InstanceOf takes a
class of objects, a method or an attribute is that of a class. -/
inductive Shown (W : Classes) : Ann → Prop
  | builtin {b} : Shown W (.builtin b)
  | any : Shown W .any
  | noneType : Shown W .noneType
  | type : Shown W .type
  | literal {vs} : Shown W (.literal vs)
  | cls {n} : KnownClass W n → Shown W (.cls n)
  | optional {t} : Shown W t → Shown W (.optional t)
  | variadic {t} : Shown W t → Shown W (.variadic t)
  | tuple {ts} : (∀ t ∈ ts, Shown W t) → Shown W (.gen .tuple ts)
  | list {t ts} : Shown W t → (∀ u ∈ ts, Known W u) → Shown W (.gen .list (t :: ts))
  | iterator {t ts} : Shown W t → (∀ u ∈ ts, Known W u) → Shown W (.gen .iterator (t :: ts))
  | dict {b} : Shown W (.gen .dict [.builtin .str, .builtin b])
  | union {t ts} : (∀ u ∈ t :: ts, ObjectClass W u) → Shown W (.gen .union (t :: ts))
  | instanceOf {t ts} : ObjectClass W t → (∀ u ∈ ts, Known W u) → Shown W (.gen .instanceOf (t :: ts))
  | typeOf {t ts} : Known W t → (∀ u ∈ ts, Known W u) → Shown W (.gen .type (t :: ts))
  | attr {g t ts} : IsAttr g → Known W t → (∀ u ∈ ts, Known W u) → (t = .type ∨ ∃ n, className t = some n) → Shown W (.gen g (t :: ts))

/-- The annotations whose default is told in the form: not the mutable ones, nor the measures. -/
def Faithful (W : Classes) : Ann → Prop
  | .optional t => Faithful W t
  | .cls n => W.family (String.ofList n) ≠ .measure
  | .gen .list _ | .gen .iterator _ | .gen .dict _ => False
  | _ => True

/-- The JSON value `d` stands for the object `v`, or for None. -/
def ObjectDefault (W : Classes) (v d : V) : Prop := (v = .none ∧ d = .none) ∨ ((∃ c a, v = .obj c a) ∧ serialize W.toWorld v = .ok d)

/-- The value `d` stands for the class `v`: it is its name. -/
def ClassDefault (v d : V) : Prop := ∃ n, v = .cls n ∧ d = .str n

/-- The value `d` stands for the default value `v` of an argument with the annotation. -/
def Meant (W : Classes) : Ann → V → V → Prop
  | .optional t, v, d => Meant W t v d
  | .cls n, v, d => if W.family (String.ofList n) = .object then ObjectDefault W v d else d = v
  | .gen .union _, v, d => ObjectDefault W v d
  | .gen .instanceOf _, v, d => ObjectDefault W v d
  | .type, v, d => ClassDefault v d
  | .gen .type _, v, d => ClassDefault v d
  | .gen .tuple _, v, d => d = v
  | .gen _ _, v, d => ∃ c a n m, v = .obj c a ∧ a.lookup (.str "class_") = some (.cls n) ∧ a.lookup (.str "name") = some m ∧
      d = .dict [(.str "class_", .str n), (.str "name", m), (.str "object_class", .str c)]
  | _, v, d => d = v

/-- The title of an attribute: the one it was given, or its name made readable. -/
def titleOf (W : Classes) (a : Attr) : String := if a.title ≠ "" then a.title else String.ofList (Txt.prettyname W.upper a.name.toList)

/-- What a form tells of an attribute. -/
structure Tells (W : Classes) (a : Ann) (at_ : Attr) (e : List (Key × V)) : Prop where
  key : e.lookup (.str "key") = some (.str at_.name)
  title : e.lookup (.str "title") = some (.str (titleOf W at_))
  editable : e.lookup (.str "editable") = some (.bool at_.editable)
  description : e.lookup (.str "description") = some (.str at_.desc)
  typing : e.lookup (.str "pythonTyping") = some (.str (String.ofList (Types.ser true a)))
  default : (e.lookup (.str "defaultValue")).isSome = at_.default.isSome
  value : Faithful W a → ∀ v, at_.default = some v → ∃ d, e.lookup (.str "defaultValue") = some d ∧ Meant W a v d

theorem label_title (a : Attr) : a.label W = titleOf W a := by
  unfold Attr.label titleOf
  by_cases h : a.title = "" <;> simp [h]

/-! ### Schemas -/

mutual
theorem known_of_lacks : ∀ {a : Ann}, lacks W a = false → Known W a
  | .builtin _, _ => .builtin
  | .any, _ => .any
  | .noneType, _ => .noneType
  | .type, _ => .type
  | .literal _, _ => .literal
  | .cls n, h => by
    refine .cls ?_
    simp only [lacks, known, Bool.not_eq_eq_eq_not, Bool.not_false] at h
    split at h
    · simp at h
    · simp at h
    · rename_i h1 h2
      exact ⟨h1, h2⟩
  | .optional t, h => .optional (known_of_lacks (by simpa only [lacks] using h))
  | .variadic t, h => .variadic (known_of_lacks (by simpa only [lacks] using h))
  | .gen g [], h => by
    cases g <;> first | exact .emptyTuple | (simp [lacks] at h)
  | .gen g (a :: as), h => by
    have h2 : g ≠ .subclass ∧ lacks W a = false ∧ lacksAll W as = false := by
      cases g <;> simp_all [lacks]
    exact .gen h2.1 (known_of_lacks h2.2.1) (known_of_lacksAll h2.2.2)
theorem known_of_lacksAll : ∀ {as : List Ann}, lacksAll W as = false → ∀ t ∈ as, Known W t
  | [], _, t, ht => by simp at ht
  | a :: as, h, t, ht => by
    simp only [lacksAll, Bool.or_eq_false_iff] at h
    rcases List.mem_cons.1 ht with hq | ht
    · rw [hq]; exact known_of_lacks h.1
    · exact known_of_lacksAll h.2 t ht
end

theorem lacksAll_false {as : List Ann} (h : ∀ t ∈ as, lacks W t = false) : lacksAll W as = false := by
  induction as with
  | nil => simp [lacksAll]
  | cons a as ih =>
    simp only [lacksAll, Bool.or_eq_false_iff]
    exact ⟨h a (by simp), ih fun t ht => h t (by simp [ht])⟩

theorem lacks_of_known {a : Ann} (h : Known W a) : lacks W a = false := by
  induction h with
  | builtin => simp [lacks]
  | any => simp [lacks]
  | noneType => simp [lacks]
  | type => simp [lacks]
  | literal => simp [lacks]
  | cls hn =>
    obtain ⟨h1, h2⟩ := hn
    simp only [lacks, known]
    rfl
  | optional _ ih => simpa only [lacks] using ih
  | variadic _ ih => simpa only [lacks] using ih
  | emptyTuple => simp [lacks]
  | @gen g a as hg _ _ ih ihs =>
    have := lacksAll_false ihs
    cases g <;> simp_all [lacks]

theorem ObjectClass.known {a : Ann} (h : ObjectClass W a) : Known W a := by
  obtain ⟨n, rfl, hn⟩ := h
  exact .cls ⟨by rw [hn]; simp, by rw [hn]; simp⟩

theorem Shown.known {a : Ann} (h : Shown W a) : Known W a := by
  induction h with
  | builtin => exact .builtin
  | any => exact .any
  | noneType => exact .noneType
  | type => exact .type
  | literal => exact .literal
  | cls h => exact .cls h
  | optional _ ih => exact .optional ih
  | variadic _ ih => exact .variadic ih
  | @tuple ts _ ih =>
    cases ts with
    | nil => exact .emptyTuple
    | cons t ts => exact .gen (by simp) (ih t (by simp)) fun u hu => ih u (by simp [hu])
  | list _ hs ih => exact .gen (by simp) ih hs
  | iterator _ hs ih => exact .gen (by simp) ih hs
  | dict => exact .gen (by simp) .builtin fun u hu => by simp only [List.mem_singleton] at hu; subst hu; exact .builtin
  | union h => exact .gen (by simp) (h _ (by simp)).known fun u hu => (h u (by simp [hu])).known
  | instanceOf h hs => exact .gen (by simp) h.known hs
  | typeOf h hs => exact .gen (by simp) h hs
  | @attr g _ _ hg h hs _ => exact .gen (by rintro rfl; exact hg) h hs

theorem base_ok {a : Ann} {form : Except PyErr String} {at_ : Attr} {e : List (Key × V)} (h : base W a form at_ = .ok e) :
    Known W a ∧ ∃ f, form = .ok f := by
  unfold base serialized at h
  by_cases hl : lacks W a = true
  · rw [if_pos hl] at h; simp at h
  · rw [if_neg hl] at h
    refine ⟨known_of_lacks (by simpa using hl), ?_⟩
    cases form with
    | error e => simp at h
    | ok f => exact ⟨f, rfl⟩

theorem withMore_ok {c m : Except PyErr (List (Key × V))} {v : V} (h : withMore c m = .ok v) :
    ∃ e f, c = .ok e ∧ m = .ok f ∧ v = .dict (dictUpdate e f) := by
  unfold withMore at h
  cases c with
  | error e => simp at h
  | ok e =>
    cases m with
    | error e => simp at h
    | ok f =>
      simp only [Except.ok.injEq] at h
      exact ⟨e, f, rfl, rfl, h.symm⟩

theorem objectName_ok {a : Ann} {n : String} (h : objectName W a = .ok n) : ObjectClass W a := by
  unfold objectName at h
  split at h
  · rename_i m
    split at h
    · rename_i hf
      exact ⟨m, rfl, hf⟩
    · simp at h
  · simp at h

theorem objectNames_ok : ∀ {ts : List Ann} {ns : List String}, objectNames W ts = .ok ns → ∀ t ∈ ts, ObjectClass W t
  | [], _, _, t, ht => by simp at ht
  | a :: as, ns, h, t, ht => by
    simp only [objectNames] at h
    cases ha : objectName W a with
    | error e => rw [ha] at h; simp at h
    | ok n =>
      rw [ha] at h
      dsimp only at h
      cases hs : objectNames W as with
      | error e => rw [hs] at h; simp at h
      | ok ms =>
        rcases List.mem_cons.1 ht with rfl | ht
        · exact objectName_ok ha
        · exact objectNames_ok hs t ht

theorem attrMore_ok {g : Gen} {a : Ann} {at_ : Attr} {f : List (Key × V)} (h : attrMore W g a at_ = .ok f) :
    a = .type ∨ ∃ n, className a = some n := by
  unfold attrMore at h
  cases hc : withMore (base W (.gen .type [a]) (.ok "class") (classSchemaAttr at_ a)) (.ok classMore) with
  | error e => rw [hc] at h; simp at h
  | ok c =>
    obtain ⟨e, -, he, -, -⟩ := withMore_ok hc
    by_cases ht : a = .type
    · exact .inl ht
    · right
      have hd : (classSchemaAttr at_ a).default = some (classValue a) := by
        unfold classSchemaAttr
        split
        · exact absurd rfl ht
        · rfl
      unfold base at he
      rw [hd] at he
      cases hs : serialized W (.gen .type [a]) with
      | error e => rw [hs] at he; simp at he
      | ok s =>
        rw [hs] at he
        dsimp only at he
        simp only [defaultValue, classValue] at he
        cases hn : className a with
        | some n => exact ⟨n, rfl⟩
        | none => rw [hn] at he; simp [classDefault] at he

theorem attr_shown : ∀ {g : Gen} {t : Ann} {ts : List Ann} {at_ : Attr} {v : V}, IsAttr g →
    withMore (base W (.gen g (t :: ts)) (.ok "attribute") at_) (attrMore W g t at_) = .ok v → Shown W (.gen g (t :: ts))
  | g, t, ts, at_, v, hg, h => by
    obtain ⟨e, f, he, hf, -⟩ := withMore_ok h
    obtain ⟨hk, -⟩ := base_ok he
    cases hk with
    | gen _ ht hs => exact .attr hg ht hs (attrMore_ok hf)

mutual
/-- An annotation with a form is one of those said to have one. -/
theorem shown_of_toDict : ∀ {a : Ann} {at_ : Attr} {v : V}, toDict W a at_ = .ok v → Shown W a
  | .optional t, _, _, h => .optional (shown_of_toDict (by simpa only [toDict] using h))
  | .builtin _, _, _, _ => .builtin
  | .any, _, _, _ => .any
  | .noneType, _, _, _ => .noneType
  | .type, _, _, _ => .type
  | .literal _, _, _, _ => .literal
  | .cls n, at_, v, h => by
    simp only [toDict, clsForm] at h
    refine .cls ?_
    split at h <;> (rename_i hf; first | (exact ⟨by rw [hf]; simp, by rw [hf]; simp⟩) | simp at h)
  | .variadic t, at_, v, h => by
    simp only [toDict] at h
    obtain ⟨e, f, -, hf, -⟩ := withMore_ok h
    cases ht : toDict W t (at_.sub W 0) with
    | error e => rw [ht] at hf; simp [tupleMore] at hf
    | ok u => exact .variadic (shown_of_toDict ht)
  | .gen .tuple ts, at_, v, h => by
    simp only [toDict] at h
    obtain ⟨e, f, -, hf, -⟩ := withMore_ok h
    cases ht : toDicts W at_ 0 ts with
    | error e => rw [ht] at hf; simp [tupleMore] at hf
    | ok us => exact .tuple (shown_of_toDicts ht)
  | .gen .list [], _, _, h => by simp [toDict] at h
  | .gen .list (t :: ts), at_, v, h => by
    simp only [toDict] at h
    obtain ⟨e, f, he, hf, -⟩ := withMore_ok h
    obtain ⟨hk, -⟩ := base_ok he
    cases ht : toDict W t (at_.sub W 0) with
    | error e => rw [ht] at hf; simp [itemsMore] at hf
    | ok u =>
      cases hk with
      | gen _ _ hs => exact .list (shown_of_toDict ht) hs
  | .gen .iterator [], _, _, h => by simp [toDict] at h
  | .gen .iterator (t :: ts), at_, v, h => by
    simp only [toDict] at h
    obtain ⟨e, f, he, hf, -⟩ := withMore_ok h
    obtain ⟨hk, -⟩ := base_ok he
    cases ht : toDict W t (at_.sub W 0) with
    | error e => rw [ht] at hf; simp [itemsMore] at hf
    | ok u =>
      cases hk with
      | gen _ _ hs => exact .iterator (shown_of_toDict ht) hs
  | .gen .dict [], _, _, h => by simp [toDict] at h
  | .gen .dict [k], _, _, h => by simp [toDict] at h
  | .gen .dict [k, w], at_, v, h => by
    simp only [toDict] at h
    cases hd : dictTests [k, w] with
    | error e => rw [hd] at h; simp at h
    | ok _ =>
      unfold dictTests at hd
      split at hd
      · rename_i heq
        simp only [List.cons.injEq, and_true] at heq
        obtain ⟨rfl, rfl⟩ := heq
        exact .dict
      · simp at hd
      · simp at hd
      · simp at hd
  | .gen .dict (_ :: _ :: _ :: _), _, _, h => by simp [toDict] at h
  | .gen .union [], at_, v, h => by
    simp only [toDict] at h
    obtain ⟨e, f, he, -, -⟩ := withMore_ok h
    obtain ⟨hk, -⟩ := base_ok he
    cases hk
  | .gen .union (t :: ts), at_, v, h => by
    simp only [toDict] at h
    obtain ⟨e, f, -, hf, -⟩ := withMore_ok h
    unfold unionMore at hf
    cases hn : objectNames W (t :: ts) with
    | error e => rw [hn] at hf; simp at hf
    | ok ns => exact .union (objectNames_ok hn)
  | .gen .instanceOf [], _, _, h => by simp [toDict] at h
  | .gen .instanceOf (t :: ts), at_, v, h => by
    simp only [toDict] at h
    obtain ⟨e, f, he, hf, -⟩ := withMore_ok h
    obtain ⟨hk, -⟩ := base_ok he
    unfold instanceMore at hf
    cases hn : objectName W t with
    | error e => rw [hn] at hf; simp at hf
    | ok n =>
      cases hk with
      | gen _ _ hs => exact .instanceOf (objectName_ok hn) hs
  | .gen .type [], _, _, h => by simp [toDict] at h
  | .gen .type (t :: ts), at_, v, h => by
    simp only [toDict] at h
    obtain ⟨e, f, he, -, -⟩ := withMore_ok h
    obtain ⟨hk, -⟩ := base_ok he
    cases hk with
    | gen _ ht hs => exact .typeOf ht hs
  | .gen .subclass _, _, _, h => by simp [toDict] at h
  | .gen .method [], _, _, h => by simp [toDict] at h
  | .gen .classMethod [], _, _, h => by simp [toDict] at h
  | .gen .attr [], _, _, h => by simp [toDict] at h
  | .gen .classAttr [], _, _, h => by simp [toDict] at h
  | .gen .cadView [], _, _, h => by simp [toDict] at h
  | .gen .plotData [], _, _, h => by simp [toDict] at h
  | .gen .markdown [], _, _, h => by simp [toDict] at h
  | .gen .method (t :: ts), at_, v, h => attr_shown (by trivial) (by simpa only [toDict] using h)
  | .gen .classMethod (t :: ts), at_, v, h => attr_shown (by trivial) (by simpa only [toDict] using h)
  | .gen .attr (t :: ts), at_, v, h => attr_shown (by trivial) (by simpa only [toDict] using h)
  | .gen .classAttr (t :: ts), at_, v, h => attr_shown (by trivial) (by simpa only [toDict] using h)
  | .gen .cadView (t :: ts), at_, v, h => attr_shown (by trivial) (by simpa only [toDict] using h)
  | .gen .plotData (t :: ts), at_, v, h => attr_shown (by trivial) (by simpa only [toDict] using h)
  | .gen .markdown (t :: ts), at_, v, h => attr_shown (by trivial) (by simpa only [toDict] using h)
theorem shown_of_toDicts : ∀ {ts : List Ann} {at_ : Attr} {i : Nat} {vs : List V}, toDicts W at_ i ts = .ok vs → ∀ t ∈ ts, Shown W t
  | [], _, _, _, _, t, ht => by simp at ht
  | a :: as, at_, i, vs, h, t, ht => by
    simp only [toDicts] at h
    cases ha : toDict W a (at_.sub W i) with
    | error e => rw [ha] at h; simp at h
    | ok u =>
      rw [ha] at h
      dsimp only at h
      cases hs : toDicts W at_ (i + 1) as with
      | error e => rw [hs] at h; simp at h
      | ok us =>
        rcases List.mem_cons.1 ht with hq | ht
        · rw [hq]; exact shown_of_toDict ha
        · exact shown_of_toDicts hs t ht
end

/-! ### What is told -/

theorem objectDefault_ok {v d : V} (h : objectDefault W (some v) = .ok d) : ObjectDefault W v d := by
  unfold objectDefault at h
  split at h
  · rename_i hv; simp at hv
  · rename_i hv
    simp only [Option.some.injEq] at hv
    subst hv
    simp only [Except.ok.injEq] at h
    exact .inl ⟨rfl, h.symm⟩
  · rename_i c a hv
    simp only [Option.some.injEq] at hv
    subst hv
    exact .inr ⟨⟨c, a, rfl⟩, h⟩
  · simp at h
  · simp at h

theorem classDefault_ok {a : Ann} {v d : V} (h : classDefault W a (some v) = .ok d) : ClassDefault v d := by
  unfold classDefault at h
  split at h
  · rename_i n hv
    simp only [Option.some.injEq] at hv
    subst hv
    simp only [Except.ok.injEq] at h
    exact ⟨n, rfl, h.symm⟩
  · simp at h
  · rename_i hv; simp at hv

theorem methodDict_ok {v d : V} (h : methodDict v = .ok d) : ∃ c a n m, v = .obj c a ∧ a.lookup (.str "class_") = some (.cls n) ∧
    a.lookup (.str "name") = some m ∧ d = .dict [(.str "class_", .str n), (.str "name", m), (.str "object_class", .str c)] := by
  unfold methodDict at h
  split at h
  · rename_i c a
    split at h
    · rename_i n m h1 h2
      simp only [Except.ok.injEq] at h
      exact ⟨c, a, n, m, rfl, h1, h2, h.symm⟩
    · simp at h
  · simp at h

/-- Not an optional annotation. -/
def Direct : Ann → Prop
  | .optional _ => False
  | _ => True

theorem meant_of_default {a : Ann} (ha : Direct a) (hf : Faithful W a) {v d : V} (h : defaultValue W a (some v) = .ok d) : Meant W a v d := by
  cases a with
  | optional t => exact ha.elim
  | builtin b => simp only [defaultValue, Option.getD_some, Except.ok.injEq] at h; exact h.symm
  | any => simp only [defaultValue, Option.getD_some, Except.ok.injEq] at h; exact h.symm
  | noneType => simp only [defaultValue, Option.getD_some, Except.ok.injEq] at h; exact h.symm
  | literal vs => simp only [defaultValue, Option.getD_some, Except.ok.injEq] at h; exact h.symm
  | type => simp only [defaultValue] at h; exact classDefault_ok h
  | variadic t => simp only [defaultValue, Except.ok.injEq] at h; exact h.symm
  | cls n =>
    simp only [defaultValue] at h
    unfold Meant
    split at h
    · rename_i hm; exact absurd hm hf
    · rename_i hm
      rw [if_pos hm]
      cases hb : buildable W (String.ofList n) with
      | error e => rw [hb] at h; simp at h
      | ok _ => rw [hb] at h; exact objectDefault_ok h
    · rename_i hm
      rw [if_neg hm]
      simp only [Option.getD_some, Except.ok.injEq] at h
      exact h.symm
  | gen g ts =>
    cases g with
    | list => exact hf.elim
    | iterator => exact hf.elim
    | dict => exact hf.elim
    | tuple => simp only [defaultValue, Except.ok.injEq] at h; exact h.symm
    | union => simp only [defaultValue] at h; exact objectDefault_ok h
    | instanceOf =>
      cases ts with
      | nil => simp [defaultValue] at h
      | cons t ts =>
        simp only [defaultValue] at h
        cases hn : objectName W t with
        | error e => rw [hn] at h; simp at h
        | ok c =>
          rw [hn] at h
          dsimp only at h
          cases hb : buildable W c with
          | error e => rw [hb] at h; simp at h
          | ok _ => rw [hb] at h; exact objectDefault_ok h
    | type =>
      cases ts with
      | nil => simp [defaultValue] at h
      | cons t ts => simp only [defaultValue] at h; exact classDefault_ok h
    | subclass => simp [defaultValue] at h
    | method => cases ts with
      | nil => simp [defaultValue] at h
      | cons t ts => simp only [defaultValue, attrDefault] at h; exact methodDict_ok h
    | classMethod => cases ts with
      | nil => simp [defaultValue] at h
      | cons t ts => simp only [defaultValue, attrDefault] at h; exact methodDict_ok h
    | attr => cases ts with
      | nil => simp [defaultValue] at h
      | cons t ts => simp only [defaultValue, attrDefault] at h; exact methodDict_ok h
    | classAttr => cases ts with
      | nil => simp [defaultValue] at h
      | cons t ts => simp only [defaultValue, attrDefault] at h; exact methodDict_ok h
    | cadView => cases ts with
      | nil => simp [defaultValue] at h
      | cons t ts => simp only [defaultValue, attrDefault] at h; exact methodDict_ok h
    | plotData => cases ts with
      | nil => simp [defaultValue] at h
      | cons t ts => simp only [defaultValue, attrDefault] at h; exact methodDict_ok h
    | markdown => cases ts with
      | nil => simp [defaultValue] at h
      | cons t ts => simp only [defaultValue, attrDefault] at h; exact methodDict_ok h

theorem base_tells {a : Ann} (ha : Direct a) {form : Except PyErr String} {at_ : Attr} {e : List (Key × V)} (h : base W a form at_ = .ok e) :
    Tells W a at_ e := by
  unfold base serialized at h
  by_cases hl : lacks W a = true
  · rw [if_pos hl] at h; simp at h
  · rw [if_neg hl] at h
    dsimp only at h
    cases form with
    | error e => simp at h
    | ok f =>
      dsimp only at h
      cases hd : at_.default with
      | none =>
        rw [hd] at h
        simp only [Except.ok.injEq] at h
        subst h
        exact ⟨rfl, by rw [← label_title]; rfl, rfl, rfl, rfl, by rw [hd]; rfl, fun _ v hv => by rw [hd] at hv; simp at hv⟩
      | some v =>
        rw [hd] at h
        dsimp only at h
        cases hv : defaultValue W a (some v) with
        | error e => rw [hv] at h; simp at h
        | ok d =>
          rw [hv] at h
          simp only [Except.ok.injEq] at h
          subst h
          refine ⟨rfl, by rw [← label_title]; rfl, rfl, rfl, rfl, by rw [hd]; rfl, fun hf w hw => ⟨d, rfl, ?_⟩⟩
          rw [hd] at hw
          simp only [Option.some.injEq] at hw
          subst hw
          exact meant_of_default ha hf hv

theorem lookup_dictUpdate_ne {e : List (Key × V)} {k : Key} : ∀ {f : List (Key × V)}, (∀ x ∈ f, x.1 ≠ k) → (dictUpdate e f).lookup k = e.lookup k := by
  intro f
  induction f generalizing e with
  | nil => intro _; rfl
  | cons x f ih =>
    intro h
    have : dictUpdate e (x :: f) = dictUpdate (dictSet e x.1 x.2) f := rfl
    rw [this, ih fun y hy => h y (by simp [hy]), lookup_dictSet_ne _ _ _ _ (fun hk => h x (by simp) hk.symm)]

/-- The keys of the entries that tell of an attribute. -/
def toldKeys : List Key := [.str "key", .str "title", .str "editable", .str "description", .str "pythonTyping", .str "defaultValue"]

theorem Tells.update {a : Ann} {at_ : Attr} {e f : List (Key × V)} (h : Tells W a at_ e) (hf : ∀ k ∈ toldKeys, k ∉ f.map (·.1)) :
    Tells W a at_ (dictUpdate e f) := by
  have hk : ∀ k ∈ toldKeys, (dictUpdate e f).lookup k = e.lookup k := fun k hk =>
    lookup_dictUpdate_ne fun x hx hq => hf k hk (hq ▸ List.mem_map_of_mem (f := (·.1)) hx)
  refine ⟨?_, ?_, ?_, ?_, ?_, ?_, ?_⟩
  · rw [hk _ (by decide)]; exact h.key
  · rw [hk _ (by decide)]; exact h.title
  · rw [hk _ (by decide)]; exact h.editable
  · rw [hk _ (by decide)]; exact h.description
  · rw [hk _ (by decide)]; exact h.typing
  · rw [hk _ (by decide)]; exact h.default
  · rw [hk _ (by decide)]; exact h.value

theorem withMore_tells {a : Ann} (ha : Direct a) {form : Except PyErr String} {at_ : Attr} {more : Except PyErr (List (Key × V))} {v : V}
    (h : withMore (base W a form at_) more = .ok v) (hm : ∀ f, more = .ok f → ∀ k ∈ toldKeys, k ∉ f.map (·.1)) :
    ∃ e, v = .dict e ∧ Tells W a at_ e := by
  obtain ⟨e, f, he, hf, rfl⟩ := withMore_ok h
  exact ⟨_, rfl, (base_tells ha he).update (hm f hf)⟩

theorem tupleMore_keys {b : Bool} {items : Except PyErr (List V)} {f : List (Key × V)} (h : tupleMore b items = .ok f) :
    ∀ k ∈ toldKeys, k ∉ f.map (·.1) := by
  unfold tupleMore at h
  cases items with
  | error e => simp at h
  | ok vs =>
    simp only [Except.ok.injEq] at h
    subst h
    simp only [List.map_cons, List.map_nil]
    decide

theorem itemsMore_keys {items : Except PyErr V} {f : List (Key × V)} (h : itemsMore items = .ok f) :
    ∀ k ∈ toldKeys, k ∉ f.map (·.1) := by
  unfold itemsMore at h
  cases items with
  | error e => simp at h
  | ok vs =>
    simp only [Except.ok.injEq] at h
    subst h
    simp only [List.map_cons, List.map_nil]
    decide

theorem patternMore_keys {items : Except PyErr V} {f : List (Key × V)} (h : patternMore items = .ok f) :
    ∀ k ∈ toldKeys, k ∉ f.map (·.1) := by
  unfold patternMore at h
  cases items with
  | error e => simp at h
  | ok vs =>
    simp only [Except.ok.injEq] at h
    subst h
    simp only [List.map_cons, List.map_nil]
    decide

theorem unionMore_keys {ts : List Ann} {f : List (Key × V)} (h : unionMore W ts = .ok f) : ∀ k ∈ toldKeys, k ∉ f.map (·.1) := by
  unfold unionMore at h
  cases ho : objectNames W ts with
  | error e => rw [ho] at h; simp at h
  | ok ns =>
    rw [ho] at h
    simp only [Except.ok.injEq] at h
    subst h
    simp only [List.map_cons, List.map_nil]
    decide

theorem instanceMore_keys {t : Ann} {f : List (Key × V)} (h : instanceMore W t = .ok f) : ∀ k ∈ toldKeys, k ∉ f.map (·.1) := by
  unfold instanceMore at h
  cases ho : objectName W t with
  | error e => rw [ho] at h; simp at h
  | ok ns =>
    rw [ho] at h
    simp only [Except.ok.injEq] at h
    subst h
    simp only [List.map_cons, List.map_nil]
    decide

theorem attrMore_keys {g : Gen} {t : Ann} {at_ : Attr} {f : List (Key × V)} (h : attrMore W g t at_ = .ok f) :
    ∀ k ∈ toldKeys, k ∉ f.map (·.1) := by
  unfold attrMore at h
  cases ho : withMore (base W (.gen .type [t]) (.ok "class") (classSchemaAttr at_ t)) (.ok classMore) with
  | error e => rw [ho] at h; simp at h
  | ok c =>
    rw [ho] at h
    simp only [Except.ok.injEq] at h
    subst h
    cases g <;> (simp only [decorator, List.map_cons, List.map_nil, List.cons_append, List.nil_append]; decide)

/-- The form of an attribute tells its name, title, documentation, annotation, default value and whether it can be edited. -/
theorem toDict_tells : ∀ {a : Ann} {at_ : Attr} {v : V}, toDict W a at_ = .ok v → ∃ e, v = .dict e ∧ Tells W a at_ e
  | .optional t, at_, v, h => by
    simp only [toDict] at h
    obtain ⟨e, he, ht⟩ := toDict_tells h
    refine ⟨e, he, ht.key, ht.title, ht.editable, ht.description, ?_, ht.default, ht.value⟩
    have : Types.ser true (.optional t) = Types.ser true t := by simp only [Types.ser]
    rw [this]
    exact ht.typing
  | .builtin b, at_, v, h => by
    simp only [toDict] at h
    exact withMore_tells (by trivial) h fun f hf => by cases hf; simp only [List.map_cons, List.map_nil]; decide
  | .any, at_, v, h => by
    simp only [toDict] at h
    exact withMore_tells (by trivial) h fun f hf => by cases hf; simp only [List.map_cons, List.map_nil]; decide
  | .noneType, at_, v, h => by
    simp only [toDict] at h
    exact withMore_tells (by trivial) h fun f hf => by cases hf; simp only [classMore, List.map_cons, List.map_nil]; decide
  | .type, at_, v, h => by
    simp only [toDict] at h
    exact withMore_tells (by trivial) h fun f hf => by cases hf; simp only [classMore, List.map_cons, List.map_nil]; decide
  | .literal _, at_, v, h => by
    simp only [toDict] at h
    exact withMore_tells (by trivial) h fun f hf => by cases hf; simp only [List.map_cons, List.map_nil]; decide
  | .cls n, at_, v, h => by
    simp only [toDict, clsForm] at h
    split at h
    · exact withMore_tells (by trivial) h fun f hf => by cases hf; simp only [List.map_cons, List.map_nil]; decide
    · exact withMore_tells (by trivial) h fun f hf => by cases hf; simp only [List.map_cons, List.map_nil]; decide
    · exact withMore_tells (by trivial) h fun f hf => by cases hf; simp only [customMore, List.map_cons, List.map_nil]; decide
    · exact withMore_tells (by trivial) h fun f hf => by cases hf; simp
    · simp at h
  | .variadic t, at_, v, h => by
    simp only [toDict] at h
    exact withMore_tells (by trivial) h fun f hf => tupleMore_keys hf
  | .gen .tuple ts, at_, v, h => by
    simp only [toDict] at h
    exact withMore_tells (by trivial) h fun f hf => tupleMore_keys hf
  | .gen .list [], _, _, h => by simp [toDict] at h
  | .gen .list (t :: ts), at_, v, h => by
    simp only [toDict] at h
    exact withMore_tells (by trivial) h fun f hf => itemsMore_keys hf
  | .gen .iterator [], _, _, h => by simp [toDict] at h
  | .gen .iterator (t :: ts), at_, v, h => by
    simp only [toDict] at h
    exact withMore_tells (by trivial) h fun f hf => itemsMore_keys hf
  | .gen .dict [], _, _, h => by simp [toDict] at h
  | .gen .dict [k], _, _, h => by simp [toDict] at h
  | .gen .dict [k, w], at_, v, h => by
    simp only [toDict] at h
    cases hd : dictTests [k, w] with
    | error e => rw [hd] at h; simp at h
    | ok _ =>
      rw [hd] at h
      exact withMore_tells (by trivial) h fun f hf => patternMore_keys hf
  | .gen .dict (_ :: _ :: _ :: _), _, _, h => by simp [toDict] at h
  | .gen .union ts, at_, v, h => by
    simp only [toDict] at h
    exact withMore_tells (by trivial) h fun f hf => unionMore_keys hf
  | .gen .instanceOf [], _, _, h => by simp [toDict] at h
  | .gen .instanceOf (t :: ts), at_, v, h => by
    simp only [toDict] at h
    exact withMore_tells (by trivial) h fun f hf => instanceMore_keys hf
  | .gen .type [], _, _, h => by simp [toDict] at h
  | .gen .type (t :: ts), at_, v, h => by
    simp only [toDict] at h
    exact withMore_tells (by trivial) h fun f hf => by cases hf; simp only [classMore, List.map_cons, List.map_nil]; decide
  | .gen .subclass _, _, _, h => by simp [toDict] at h
  | .gen .method [], _, _, h => by simp [toDict] at h
  | .gen .classMethod [], _, _, h => by simp [toDict] at h
  | .gen .attr [], _, _, h => by simp [toDict] at h
  | .gen .classAttr [], _, _, h => by simp [toDict] at h
  | .gen .cadView [], _, _, h => by simp [toDict] at h
  | .gen .plotData [], _, _, h => by simp [toDict] at h
  | .gen .markdown [], _, _, h => by simp [toDict] at h
  | .gen .method (t :: ts), at_, v, h => by
    simp only [toDict] at h
    exact withMore_tells (by trivial) h fun f hf => attrMore_keys hf
  | .gen .classMethod (t :: ts), at_, v, h => by
    simp only [toDict] at h
    exact withMore_tells (by trivial) h fun f hf => attrMore_keys hf
  | .gen .attr (t :: ts), at_, v, h => by
    simp only [toDict] at h
    exact withMore_tells (by trivial) h fun f hf => attrMore_keys hf
  | .gen .classAttr (t :: ts), at_, v, h => by
    simp only [toDict] at h
    exact withMore_tells (by trivial) h fun f hf => attrMore_keys hf
  | .gen .cadView (t :: ts), at_, v, h => by
    simp only [toDict] at h
    exact withMore_tells (by trivial) h fun f hf => attrMore_keys hf
  | .gen .plotData (t :: ts), at_, v, h => by
    simp only [toDict] at h
    exact withMore_tells (by trivial) h fun f hf => attrMore_keys hf
  | .gen .markdown (t :: ts), at_, v, h => by
    simp only [toDict] at h
    exact withMore_tells (by trivial) h fun f hf => attrMore_keys hf

end DC.Sch
