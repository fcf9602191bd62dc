import Verif.Schemas.ClassProps
/-
Property C130: what the checks of a class tell.
-/
namespace DC.Sch

open DC.Types (Ann Gen Builtin Signature)

set_option linter.unusedSectionVars false
set_option linter.unusedSimpArgs false

variable {W : Classes}

/-! ### Specification -/

/-- A subclass of str, str included. -/
def StrClass (W : Classes) : Ann → Prop
  | .builtin .str => True
  | .cls n => W.family (String.ofList n) = .text
  | _ => False

/-- The arguments of the annotation itself are what they should be: one for a list, an iterator, `InstanceOf` and `Type`, at least one
for a tuple, a subclass of str and a builtin type for a dictionary, classes of objects either all standalone in database or all not for
a union. -/
inductive Proper (W : Classes) : Ann → Prop
  | builtin {b} : Proper W (.builtin b)
  | any : Proper W .any
  | noneType : Proper W .noneType
  | literal {vs} : Proper W (.literal vs)
  | cls {n} : Proper W (.cls n)
  | optional {t} : Proper W (.optional t)
  | variadic {t} : Proper W (.variadic t)
  | tuple {t ts} : Proper W (.gen .tuple (t :: ts))
  | one {g t} : g = .list ∨ g = .iterator ∨ g = .instanceOf ∨ g = .type → Proper W (.gen g [t])
  | dict {k b} : StrClass W k → Proper W (.gen .dict [k, .builtin b])
  | union {ns : List (List Char)} : (∀ n ∈ ns, W.family (String.ofList n) = .object) →
      ((∀ n ∈ ns, (W.info (String.ofList n)).standalone = true) ∨ ∀ n ∈ ns, (W.info (String.ofList n)).standalone = false) →
      Proper W (.gen .union (ns.map .cls))
  | attr {g ts} : IsAttr g ∨ g = .subclass → Proper W (.gen g ts)

/-- The checks returned and none of them is an error. -/
def Passes (r : Except PyErr (List Check)) : Prop := ∃ cs, r = .ok cs ∧ ∀ c ∈ cs, c.level ≠ "error"

/-! ### Checks of a property -/

theorem passes_nil : Passes (.ok []) := ⟨[], rfl, by simp⟩

theorem passes_error {e : PyErr} : ¬ Passes (.error e) := by rintro ⟨cs, h, -⟩; simp at h

theorem passes_ok {cs : List Check} : Passes (.ok cs) ↔ ∀ c ∈ cs, c.level ≠ "error" := by
  constructor
  · rintro ⟨ds, h, hd⟩
    simp only [Except.ok.injEq] at h
    subst h
    exact hd
  · exact fun h => ⟨cs, rfl, h⟩

theorem passed_level (m : String) : (passedCheck m).level ≠ "error" := by simp [passedCheck]

theorem failed_level (m : String) : ¬ (failedCheck m).level ≠ "error" := by simp [failedCheck]

theorem hasOneArg_level {ts : List Ann} : (hasOneArg ts).level ≠ "error" ↔ ∃ t, ts = [t] := by
  unfold hasOneArg
  by_cases h : ts.length ≠ 1
  · rw [if_pos h]
    constructor
    · exact fun hf => absurd hf (failed_level _)
    · rintro ⟨t, rfl⟩; simp at h
  · rw [if_neg h]
    have : ∃ t, ts = [t] := List.length_eq_one_iff.1 (by simpa using h)
    exact ⟨fun _ => this, fun _ => passed_level _⟩

theorem objectNames_eq : ∀ {ts : List Ann} {ns : List String}, objectNames W ts = .ok ns →
    ts = ns.map (fun n => .cls n.toList) ∧ ∀ n ∈ ns, W.family n = .object
  | [], ns, h => by
    simp only [objectNames, Except.ok.injEq] at h
    subst h
    exact ⟨rfl, by simp⟩
  | a :: as, ns, h => by
    simp only [objectNames] at h
    cases ha : objectName W a with
    | error e => rw [ha] at h; simp at h
    | ok n =>
      rw [ha] at h
      dsimp only at h
      cases hs : objectNames W as with
      | error e => rw [hs] at h; simp at h
      | ok ms =>
        rw [hs] at h
        simp only [Except.ok.injEq] at h
        subst h
        obtain ⟨h1, h2⟩ := objectNames_eq hs
        unfold objectName at ha
        split at ha
        · rename_i m
          split at ha
          · rename_i hf
            simp only [Except.ok.injEq] at ha
            subst ha
            refine ⟨by rw [h1]; simp, ?_⟩
            intro k hk
            rcases List.mem_cons.1 hk with rfl | hk
            · exact hf
            · exact h2 k hk
          · simp at ha
        · simp at ha

theorem objectNames_map : ∀ {ns : List (List Char)}, (∀ n ∈ ns, W.family (String.ofList n) = .object) →
    objectNames W (ns.map .cls) = .ok (ns.map String.ofList)
  | [], _ => rfl
  | n :: ns, h => by
    simp only [List.map_cons, objectNames, objectName, h n (by simp), objectNames_map (ns := ns) fun m hm => h m (by simp [hm])]

theorem unionStandalone_none {ns : List String} : unionStandalone W ns ≠ .none ↔
    (∀ n ∈ ns, (W.info n).standalone = true) ∨ ∀ n ∈ ns, (W.info n).standalone = false := by
  unfold unionStandalone
  by_cases h1 : (ns.all fun n => (W.info n).standalone) = true
  · rw [if_pos h1]
    exact ⟨fun _ => .inl (by simpa using h1), fun _ => by simp⟩
  · rw [if_neg h1]
    by_cases h2 : (!ns.any fun n => (W.info n).standalone) = true
    · rw [if_pos h2]
      exact ⟨fun _ => .inr (by simpa using h2), fun _ => by simp⟩
    · rw [if_neg h2]
      refine ⟨fun h => absurd rfl h, ?_⟩
      rintro (h | h)
      · exact absurd (by simpa using h) h1
      · exact absurd (by simpa using h) h2

theorem unionChecks_passes {ts : List Ann} : Passes (unionChecks W ts) ↔ Proper W (.gen .union ts) := by
  constructor
  · intro h
    unfold unionChecks at h
    cases ho : objectNames W ts with
    | error e => rw [ho] at h; exact absurd h passes_error
    | ok ns =>
      rw [ho] at h
      dsimp only at h
      rw [passes_ok] at h
      obtain ⟨h1, h2⟩ := objectNames_eq ho
      have h3 : unionStandalone W ns ≠ .none := by
        intro hn
        rw [hn] at h
        exact failed_level _ (h (failedCheck "not consistent") (by simp))
      rw [unionStandalone_none] at h3
      have h4 : ts = (ns.map String.toList).map .cls := by rw [h1, List.map_map]; rfl
      rw [h4]
      refine .union ?_ ?_
      · simpa using h2
      · simpa using h3
  · intro h
    generalize ha : Ann.gen .union ts = a at h
    cases h with
    | @union ns h1 h2 =>
      simp only [Ann.gen.injEq, true_and] at ha
      subst ha
      unfold unionChecks
      rw [objectNames_map h1]
      dsimp only
      rw [passes_ok]
      have h3 : unionStandalone W (ns.map String.ofList) ≠ .none := by
        rw [unionStandalone_none]
        simpa using h2
      simp only [List.mem_singleton, forall_eq]
      exact passed_level _
    | one hg => simp only [Ann.gen.injEq] at ha; obtain ⟨rfl, -⟩ := ha; simp at hg
    | attr hg => simp only [Ann.gen.injEq] at ha; obtain ⟨rfl, -⟩ := ha; simp [IsAttr] at hg
    | _ => simp at ha

theorem dictChecks_passes {ts : List Ann} : Passes (dictChecks W .none ts) ↔ Proper W (.gen .dict ts) := by
  constructor
  · intro h
    unfold dictChecks at h
    split at h
    · rename_i k v
      cases hk : isStrClass W k with
      | error e => rw [hk] at h; exact absurd h passes_error
      | ok s =>
        rw [hk] at h
        dsimp only at h
        rw [passes_ok] at h
        have hs : s = true := by
          cases s with
          | true => rfl
          | false => exact absurd (h (failedCheck "requires str as its key type") (by simp)) (failed_level _)
        subst hs
        have hv : ∃ b, v = .builtin b := by
          cases v with
          | builtin b => exact ⟨b, rfl⟩
          | _ => exact absurd (h (failedCheck "requires a builtin type as its value type") (by simp)) (failed_level _)
        obtain ⟨b, rfl⟩ := hv
        refine .dict ?_
        unfold isStrClass at hk
        split at hk
        · trivial
        · simp at hk
        · simpa [StrClass] using hk
        · simp at hk
        · simp at hk
    · exact absurd h passes_error
  · intro h
    generalize ha : Ann.gen .dict ts = a at h
    cases h with
    | @dict k b hk =>
      simp only [Ann.gen.injEq, true_and] at ha
      subst ha
      have hs : isStrClass W k = .ok true := by
        unfold StrClass at hk
        split at hk
        · rfl
        · simp only [isStrClass, hk, decide_true]
        · exact hk.elim
      unfold dictChecks
      dsimp only
      rw [hs]
      dsimp only
      rw [passes_ok]
      intro c hc
      simp only [if_true, List.mem_cons, List.not_mem_nil, or_false] at hc
      rcases hc with rfl | rfl | rfl | rfl <;> exact passed_level _
    | one hg => simp only [Ann.gen.injEq] at ha; obtain ⟨rfl, -⟩ := ha; simp at hg
    | attr hg => simp only [Ann.gen.injEq] at ha; obtain ⟨rfl, -⟩ := ha; simp [IsAttr] at hg
    | _ => simp at ha

theorem one_iff {g : Gen} (hg : g = .list ∨ g = .iterator ∨ g = .instanceOf ∨ g = .type) {ts : List Ann} :
    (∃ t, ts = [t]) ↔ Proper W (.gen g ts) := by
  constructor
  · rintro ⟨t, rfl⟩; exact .one hg
  · intro h
    generalize ha : Ann.gen g ts = a at h
    cases h with
    | @one g' t hg' => simp only [Ann.gen.injEq] at ha; exact ⟨t, ha.2⟩
    | tuple => simp only [Ann.gen.injEq] at ha; obtain ⟨rfl, -⟩ := ha; simp at hg
    | dict => simp only [Ann.gen.injEq] at ha; obtain ⟨rfl, -⟩ := ha; simp at hg
    | union => simp only [Ann.gen.injEq] at ha; obtain ⟨rfl, -⟩ := ha; simp at hg
    | attr hg' =>
      simp only [Ann.gen.injEq] at ha
      obtain ⟨rfl, -⟩ := ha
      rcases hg with rfl | rfl | rfl | rfl <;> simp [IsAttr] at hg'
    | _ => simp at ha

/-- The checks of a parameter itself find no error exactly when the arguments of its annotation are what they should be, whatever its
default.  Missing for the full property: annotations within are not checked, nor those in `Optional[...]`; and see
`C130_valid_violated`, `C130_raises_violated` and `C130_default_violated`. -/
theorem C130_property_partial {a : Ann} {d : Option V} : Passes (checks W a d) ↔ Proper W a := by
  cases a with
  | builtin b => exact ⟨fun _ => .builtin, fun _ => passes_nil⟩
  | any => exact ⟨fun _ => .any, fun _ => passes_nil⟩
  | noneType => exact ⟨fun _ => .noneType, fun _ => passes_nil⟩
  | literal vs => exact ⟨fun _ => .literal, fun _ => passes_nil⟩
  | optional t => exact ⟨fun _ => .optional, fun _ => passes_nil⟩
  | type =>
    simp only [checks, passes_ok, List.mem_singleton, forall_eq, hasOneArg_level]
    constructor
    · rintro ⟨t, h⟩; simp at h
    · intro h; cases h
  | variadic t =>
    refine ⟨fun _ => .variadic, fun _ => ?_⟩
    simp only [checks, passes_ok, List.mem_cons, List.not_mem_nil, or_false]
    rintro c (rfl | rfl) <;> exact passed_level _
  | cls n =>
    refine ⟨fun _ => .cls, fun _ => ?_⟩
    simp only [checks]
    split
    · cases d with
      | none => rw [passes_ok]; simp [passedCheck]
      | some v => rw [passes_ok]; simp [checkWarning]
    · rw [passes_ok]; simp [passedCheck]
    · exact passes_nil
  | gen g ts =>
    cases g with
    | union => exact unionChecks_passes
    | dict => simp only [checks, defaultValue]; exact dictChecks_passes
    | list =>
      simp only [checks, defaultValue, passes_ok, List.mem_cons, List.not_mem_nil, or_false, forall_eq_or_imp, forall_eq, hasOneArg_level]
      rw [one_iff (W := W) (.inl rfl)]
      exact ⟨fun h => h.1, fun h => ⟨h, passed_level _⟩⟩
    | iterator =>
      simp only [checks, defaultValue, passes_ok, List.mem_cons, List.not_mem_nil, or_false, forall_eq_or_imp, forall_eq, hasOneArg_level]
      rw [one_iff (W := W) (.inr (.inl rfl))]
      exact ⟨fun h => h.1, fun h => ⟨h, passed_level _⟩⟩
    | instanceOf =>
      simp only [checks, passes_ok, List.mem_singleton, forall_eq, hasOneArg_level]
      exact one_iff (.inr (.inr (.inl rfl)))
    | type =>
      simp only [checks, passes_ok, List.mem_singleton, forall_eq, hasOneArg_level]
      exact one_iff (.inr (.inr (.inr rfl)))
    | tuple =>
      simp only [checks, passes_ok, List.mem_cons, List.not_mem_nil, or_false, forall_eq_or_imp, forall_eq]
      cases ts with
      | nil =>
        refine ⟨fun h => absurd h.1 (by simp [failedCheck]), fun h => ?_⟩
        generalize ha : Ann.gen .tuple [] = a at h
        cases h with
        | one hg => simp at ha
        | attr hg => simp only [Ann.gen.injEq] at ha; obtain ⟨rfl, -⟩ := ha; simp [IsAttr] at hg
        | _ => simp at ha
      | cons t ts => exact ⟨fun _ => .tuple, fun _ => ⟨by simp [passedCheck], passed_level _⟩⟩
    | subclass => exact ⟨fun _ => .attr (.inr rfl), fun _ => passes_nil⟩
    | _ => exact ⟨fun _ => .attr (.inl trivial), fun _ => passes_nil⟩

example : Passes (checks demo (.gen .dict [.builtin .str, .builtin .int]) none) := C130_property_partial.2 (.dict trivial)

example : ¬ Passes (checks demo (.gen .dict [.builtin .int, .builtin .int]) none) := by
  rw [C130_property_partial]
  intro h
  generalize ha : Ann.gen .dict [.builtin .int, .builtin .int] = a at h
  cases h with
  | dict hk => simp only [Ann.gen.injEq, List.cons.injEq, and_true, true_and] at ha; rw [← ha.1] at hk; exact hk
  | one hg => simp at ha
  | attr hg => simp only [Ann.gen.injEq] at ha; obtain ⟨rfl, -⟩ := ha; simp [IsAttr] at hg
  | union => simp at ha
  | _ => simp at ha

example : ¬ Passes (checks demo (.gen .tuple []) (some (.tuple []))) := by
  rintro ⟨cs, h, hc⟩
  simp only [checks, Except.ok.injEq] at h
  subst h
  exact absurd (hc (failedCheck "requires at least 1 argument") (by simp)) (failed_level _)

/-! ### Violations -/

theorem checkList_eq : ∀ {steps : List (List (Attr × Ann))} {issues r : List Check}, checkList W steps issues = .ok r → r = issues
  | [], issues, r, h => by
    simp only [checkList, Except.ok.injEq] at h
    exact h.symm
  | s :: steps, issues, r, h => by
    simp only [checkList] at h
    cases hc : collectChecks W s issues with
    | error e => rw [hc] at h; simp at h
    | ok cs => rw [hc] at h; exact checkList_eq h

/-- **C130** is violated: the list of checks of a schema is always empty and no class is ever reported invalid, even when the checks of
its parameters fail and it has no form: `Dict[int, int]`, for instance. -/
theorem C130_valid_violated :
    (∀ (W : Classes) (steps : List (List (Attr × Ann))), (∀ cs, checkList W steps [] = .ok cs → cs = []) ∧ ∀ b, isValid W steps = .ok b → b = true) ∧
    ∀ (W : Classes) (at_ : Attr), isValid W [[(at_, .gen .dict [.builtin .int, .builtin .int])]] = .ok true ∧
      ¬ Passes (checks W (.gen .dict [.builtin .int, .builtin .int]) at_.default) ∧
      toDict W (.gen .dict [.builtin .int, .builtin .int]) at_ = .error .notImplemented := by
  refine ⟨fun W steps => ⟨fun cs h => checkList_eq h, fun b h => ?_⟩, fun W at_ => ⟨?_, ?_, ?_⟩⟩
  · unfold isValid at h
    cases hc : checkList W steps [] with
    | error e => rw [hc] at h; simp at h
    | ok cs =>
      rw [hc, checkList_eq hc] at h
      simpa [checksAbove] using h.symm
  · simp only [isValid, checkList, collectChecks, checks, defaultValue, dictChecks, isStrClass, checksAbove]
    rfl
  · rintro ⟨cs, h, hc⟩
    simp only [checks, defaultValue, dictChecks, isStrClass, Except.ok.injEq] at h
    subst h
    exact absurd (hc (failedCheck "requires str as its key type") (by simp)) (failed_level _)
  · simp only [toDict, dictTests]

/-- **C130** is violated: whether a class is valid raises AttributeError when a parameter is a union of other types than classes of
objects, `Union[int, str]` for instance, and ValueError on `Dict[str]`. -/
theorem C130_raises_violated (W : Classes) (at_ : Attr) :
    isValid W [[(at_, .gen .union [.builtin .int, .builtin .str])]] = .error .attributeError ∧
    isValid W [[(at_, .gen .dict [.builtin .str])]] = .error .valueError := by
  constructor <;> simp only [isValid, checkList, collectChecks, checks, unionChecks, objectNames, objectName, defaultValue, dictChecks]

/-- **C130** is violated: a mutable default value of a list or of a dictionary is not reported by the check meant for it: the outcome is
the same as without default. -/
theorem C130_default_violated (W : Classes) (ts : List Ann) (v : V) :
    checks W (.gen .list ts) (some v) = checks W (.gen .list ts) none ∧ checks W (.gen .dict ts) (some v) = checks W (.gen .dict ts) none ∧
    checks W (.gen .list [.builtin .int]) (some (.list [.int 1])) = .ok [passedCheck "has exactly one argument", passedCheck "no default"] := by
  refine ⟨?_, ?_, ?_⟩ <;> simp only [checks, defaultValue]
  simp [hasOneArg, hasNoDefault]

/-- **C130** is violated: annotations within others are not checked: a list of dictionaries from int, which has no form, passes. -/
theorem C130_inner_violated (W : Classes) (at_ : Attr) :
    Passes (checks W (.gen .list [.gen .dict [.builtin .int, .builtin .int]]) at_.default) ∧
    Passes (checks W (.optional (.gen .dict [.builtin .int, .builtin .int])) at_.default) ∧
    (∀ v, toDict W (.gen .list [.gen .dict [.builtin .int, .builtin .int]]) at_ ≠ .ok v) ∧
    ∀ v, toDict W (.optional (.gen .dict [.builtin .int, .builtin .int])) at_ ≠ .ok v := by
  refine ⟨C130_property_partial.2 (.one (.inl rfl)), C130_property_partial.2 .optional, fun v h => ?_, fun v h => ?_⟩
  · obtain ⟨e, f, -, hf, -⟩ := withMore_ok (by simpa only [toDict] using h)
    simp [toDict, dictTests, itemsMore] at hf
  · simp [toDict, dictTests] at h

end DC.Sch
