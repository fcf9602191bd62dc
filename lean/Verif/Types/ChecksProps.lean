import Verif.Types.Checks
/- Property C170: checks of types. -/
namespace DC.Types

variable {T α : Type} [DecidableEq T] {W : TypeWorld T α}

/-! ### Specification -/

/-- The types of all pipes agree: that of the source is a subclass of that of the destination. -/
def PipesAgree (W : TypeWorld T α) (ps : List (T × T)) : Prop := ∀ p ∈ ps, W.issubclass p.1 p.2 = .ok true

/-- The types are classes, which have no attribute `type_`. -/
def PlainTypes (W : TypeWorld T α) (ps : List (T × T)) : Prop := ∀ p ∈ ps, W.typeOf p.1 = .error .attributeError

/-! ### Proofs -/

/-- A workflow without pipes is valid.
Missing: workflows with pipes (`C170_never_false_violated`, `C170_raises_violated`). -/
theorem C170_no_pipe_partial : workflowValid W [] = .ok true ∧ PipesAgree W [] := ⟨rfl, by intro p hp; simp at hp⟩

/-- No workflow is told not to be valid: the answer, if any, is True. -/
theorem C170_never_false_violated (ps : List (T × T)) (b : Bool) (h : workflowValid W ps = .ok b) : b = true := by
  induction ps with
  | nil => simpa [workflowValid] using h.symm
  | cons p ps ih =>
    simp only [workflowValid] at h
    split at h
    · simp at h
    · exact ih h

/-- A pipe lets a workflow be told valid exactly when the types of its two variables have a type themselves, which are the same, or else when the type of
the first of these has no type, or is not a class (a TypeError each time), or is a class of which `issubclass` tells something. -/
def PipePasses (W : TypeWorld T α) (p : T × T) : Prop :=
  ∃ u d, W.typeOf p.1 = .ok u ∧ W.typeOf p.2 = .ok d ∧
    (u = d ∨ W.typeOf u = .error .typeError ∨ ∃ v, W.typeOf u = .ok v ∧ (W.issubclass v d = .error .typeError ∨ ∃ b, W.issubclass v d = .ok b))

/-- A workflow is told to be valid exactly when each of its pipes passes the check: another error than a TypeError is not dropped.
Missing: an answer for pipes whose check raises (`C170_never_false_violated`, `C170_raises_violated`). -/
theorem C170_exact_partial (ps : List (T × T)) : workflowValid W ps = .ok true ↔ ∀ p ∈ ps, PipePasses W p := by
  have hp : ∀ p : T × T, checkPipe W p.1 p.2 = .ok () ↔ PipePasses W p := by
    intro p
    simp only [checkPipe, PipePasses]
    cases hu : W.typeOf p.1 with
    | error e => simp
    | ok u =>
      cases hd : W.typeOf p.2 with
      | error e => simp
      | ok d =>
        simp only [Except.ok.injEq, exists_and_left, exists_eq_left']
        by_cases e : u = d
        · simp [e]
        · simp only [e, if_false, false_or]
          cases huu : W.typeOf u with
          | error e => cases e <;> simp
          | ok v =>
            simp only [reduceCtorEq, Except.ok.injEq, exists_eq_left', false_or]
            cases hs : W.issubclass v d with
            | ok b => simp
            | error e => cases e <;> simp
  induction ps with
  | nil => simp [workflowValid]
  | cons p ps ih =>
    rw [List.forall_mem_cons]
    refine Iff.trans ?_ (and_congr (hp p) ih)
    simp only [workflowValid]
    cases h : checkPipe W p.1 p.2 <;> simp

/-- A workflow whose variables have classes as types, and with a pipe, is an AttributeError, whether the types agree or not. -/
theorem C170_raises_violated {ps : List (T × T)} (hp : PlainTypes W ps) (hn : ps ≠ []) : workflowValid W ps = .error .attributeError := by
  match ps, hn with
  | p :: ps, _ =>
    have h := hp p List.mem_cons_self
    simp only [workflowValid, checkPipe, h]

/-- A value is told to have a type exactly when it is an instance of it, for a type that `isinstance` takes.
Missing: types that `isinstance` does not take (`C170_generic_violated`). -/
theorem C170_value_partial {v : α} {t : T} (ht : t ≠ W.none) {b : Bool} (hb : W.isinstance v t = .ok b) : valueTypeCheck W v t = .ok b := by
  simp only [valueTypeCheck, if_neg ht, hb]

/-- No value has the type None, as that of a variable without type. -/
theorem C170_none (v : α) : valueTypeCheck W v W.none = .ok false := by simp only [valueTypeCheck, if_true]

/-- All values are told to have a type that `isinstance` refuses, as `List[int]`. -/
theorem C170_generic_violated {v : α} {t : T} (ht : t ≠ W.none) (hb : W.isinstance v t = .error .typeError) : valueTypeCheck W v t = .ok true := by
  simp only [valueTypeCheck, if_neg ht, hb]

/-- Types int, bool, str, `List[int]` and None; values are an integer or a string. -/
def fewTypes : TypeWorld String (Int ⊕ String) where
  typeOf _ := .error .attributeError
  issubclass a b := if a = "List[int]" ∨ b = "List[int]" then .error .typeError else .ok (a == b || (a == "bool" && b == "int"))
  isinstance v t := if t = "List[int]" then .error .typeError else .ok (t == match v with | .inl _ => "int" | .inr _ => "str")
  none := "None"

/-- Not vacuous: pipes that agree and pipes that do not, all with classes as types. -/
example : PlainTypes fewTypes [("bool", "int"), ("str", "str")] ∧ PipesAgree fewTypes [("bool", "int"), ("str", "str")] ∧
    PlainTypes fewTypes [("str", "int")] ∧ ¬ PipesAgree fewTypes [("str", "int")] := by
  refine ⟨fun p _ => rfl, ?_, fun p _ => rfl, fun h => ?_⟩
  · intro p hp
    simp only [List.mem_cons, List.not_mem_nil, or_false] at hp
    rcases hp with rfl | rfl <;> rfl
  · have := h ("str", "int") (by simp)
    revert this
    simp [fewTypes]

/-- Not vacuous: an integer is an int and not a str, and is told to be a list of integers. -/
example : valueTypeCheck fewTypes (.inl 3) "int" = .ok true ∧ valueTypeCheck fewTypes (.inl 3) "str" = .ok false ∧
    valueTypeCheck fewTypes (.inl 3) "List[int]" = .ok true := ⟨rfl, rfl, rfl⟩

/-- Types which have themselves as types, as a module of types may give. -/
def selfTypes : TypeWorld String (Int ⊕ String) := { fewTypes with typeOf := fun t => if t = "str" then .error .typeError else .ok t }

/-- Not vacuous: pipes which pass, though `str` is no subclass of int. -/
example : workflowValid selfTypes [("int", "int"), ("bool", "int"), ("int", "List[int]")] = .ok true ∧
    ∀ p ∈ [("int", "int"), ("bool", "int"), ("int", "List[int]")], PipePasses selfTypes p := ⟨rfl, (C170_exact_partial _).1 rfl⟩

end DC.Types
