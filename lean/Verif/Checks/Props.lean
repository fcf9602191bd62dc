import Verif.Checks.Model
import Verif.Values.DiffLemmas
/- C23, C24: check lists. -/
namespace DC

/-- The four levels, from the lowest. -/
inductive Level where
  | debug | info | warning | error
  deriving DecidableEq, Repr

/-- Name of a level. -/
def Level.name : Level → String
  | .debug => "debug" | .info => "info" | .warning => "warning" | .error => "error"

/-- Order of levels: debug < info < warning < error. -/
def Level.atLeast : Level → Level → Prop
  | _, .debug => True
  | .debug, _ => False
  | _, .info => True
  | .info, _ => False
  | _, .warning => True
  | .warning, _ => False
  | .error, .error => True

/-- Every check has one of the four levels. -/
def Levelled (cs : List Check) : Prop := ∀ c ∈ cs, ∃ l : Level, c.level = l.name

/-- The check is of level at least `l`. -/
def Above (l : Level) (c : Check) : Prop := ∃ l' : Level, c.level = l'.name ∧ l'.atLeast l

theorem Level.name_inj {a b : Level} (h : a.name = b.name) : a = b := by
  cases a <;> cases b <;> first | rfl | (exfalso; revert h; decide)

/-- Rank of a level. -/
def Level.rank : Level → Nat
  | .debug => 0 | .info => 1 | .warning => 2 | .error => 3

theorem levelToInt_name (l : Level) : levelToInt l.name = some l.rank := by
  cases l <;> decide

theorem atLeast_rank (a b : Level) : a.atLeast b ↔ a.rank ≥ b.rank := by
  cases a <;> cases b <;> simp [Level.atLeast, Level.rank]

theorem above_iff (l a : Level) (c : Check) (h : c.level = a.name) : Above l c ↔ a.rank ≥ l.rank := by
  constructor
  · rintro ⟨l', h1, h2⟩
    rw [Level.name_inj (h1.symm.trans h)] at h2
    exact (atLeast_rank _ _).1 h2
  · intro h2; exact ⟨a, h, (atLeast_rank _ _).2 h2⟩

/-- C23: `checks_above_level(l)` returns, in order, exactly the checks of level at least `l`. -/
theorem C23_above_exact (cs : List Check) (h : Levelled cs) (l : Level) :
    ∃ (p : Check → Bool) (r : List Check), checksAbove l.name cs = .ok r ∧ r = cs.filter p ∧
      ∀ c ∈ cs, p c = true ↔ Above l c := by
  classical
  refine ⟨fun c => decide (Above l c), cs.filter (fun c => decide (Above l c)), ?_, rfl, by simp⟩
  induction cs with
  | nil => rfl
  | cons c cs ih =>
    obtain ⟨a, ha⟩ := h c (by simp)
    rw [checksAbove, ha, levelToInt_name, levelToInt_name, ih (fun c hc => h c (by simp [hc]))]
    simp only [bind, Except.bind]
    rw [List.filter_cons]
    have := above_iff l a c ha
    by_cases hr : a.rank ≥ l.rank
    · rw [if_pos hr, if_pos (by simpa using this.2 hr)]
    · rw [if_neg hr, if_neg (by simpa using fun h => hr (this.1 h))]

/-- C23: raising the level only removes checks. -/
theorem C23_shrinks (cs r r' : List Check) (l l' : Level) (hl : l'.atLeast l)
    (h : checksAbove l.name cs = .ok r) (h' : checksAbove l'.name cs = .ok r') : List.Sublist r' r := by
  induction cs generalizing r r' with
  | nil => simp only [checksAbove, Except.ok.injEq] at h h'; subst h h'; exact .slnil
  | cons c cs ih =>
    rw [checksAbove, levelToInt_name] at h h'
    cases hc : levelToInt c.level with
    | none => rw [hc] at h; simp at h
    | some n =>
      rw [hc] at h h'
      simp only at h h'
      rw [bind_ok] at h h'
      obtain ⟨s, hs, h⟩ := h
      obtain ⟨s', hs', h'⟩ := h'
      simp only [Except.ok.injEq] at h h'
      subst h h'
      have := ih _ _ hs hs'
      have hr := (atLeast_rank _ _).1 hl
      by_cases h1 : n ≥ l'.rank
      · rw [if_pos h1, if_pos (by omega)]; exact this.cons_cons _
      · rw [if_neg h1]
        split
        · exact this.cons _
        · exact this

/-- C23: selecting distributes over `+`. -/
theorem C23_distributes (a b ra rb : List Check) (level : String) (ha : checksAbove level a = .ok ra)
    (hb : checksAbove level b = .ok rb) : checksAbove level (checksAdd a b) = .ok (checksAdd ra rb) := by
  induction a generalizing ra with
  | nil => simp only [checksAbove, Except.ok.injEq] at ha; subst ha; simpa [checksAdd] using hb
  | cons c cs ih =>
    simp only [checksAdd, List.cons_append] at ih ⊢
    rw [checksAbove] at ha ⊢
    split at ha
    · rename_i x y hx hy
      rw [bind_ok] at ha
      obtain ⟨s, hs, ha⟩ := ha
      simp only [Except.ok.injEq] at ha
      subst ha
      rw [ih s hs]
      simp only [bind, Except.bind]
      split <;> rfl
    · simp at ha

/-- C23: `raise_if_above_level` raises if and only if a check is of level at least the given one. -/
theorem C23_raises_iff (cs : List Check) (h : Levelled cs) (l : Level) :
    ((∃ c ∈ cs, Above l c) → raiseIfAbove l.name cs = .error .valueError) ∧
    ((¬ ∃ c ∈ cs, Above l c) → raiseIfAbove l.name cs = .ok ()) := by
  obtain ⟨p, r, h1, h2, h3⟩ := C23_above_exact cs h l
  unfold raiseIfAbove
  rw [h1]
  simp only [bind, Except.bind]
  constructor
  · rintro ⟨c, hc, ha⟩
    have : c ∈ r := by rw [h2, List.mem_filter]; exact ⟨hc, (h3 c hc).2 ha⟩
    cases r with
    | nil => simp at this
    | cons x xs => rfl
  · intro hn
    cases r with
    | nil => rfl
    | cons x xs =>
      have : x ∈ cs.filter p := by rw [← h2]; simp
      rw [List.mem_filter] at this
      exact absurd ⟨x, this.1, (h3 x this.1).1 this.2⟩ hn

/-- C23: an unknown level raises KeyError as soon as there is a check. -/
theorem C23_unknown_level (c : Check) (cs : List Check) (level : String)
    (h : level ∉ ["debug", "info", "warning", "error"]) : checksAbove level (c :: cs) = .error .keyError := by
  have : levelToInt level = none := by
    simp only [List.mem_cons, List.not_mem_nil, or_false, not_or] at h
    simp [levelToInt, h]
  rw [checksAbove, this]
  cases levelToInt c.level <;> rfl

/-- C23: a check that a method of the library builds is false in a test if and only if it is at the level `error`, so warnings count as passed. -/
theorem C23_truth (c : Check) (m : String) (h : c = passedCheck m ∨ c = checkWarning m ∨ c = failedCheck m) : c.passed = false ↔ Above .error c := by
  rcases h with rfl | rfl | rfl
  · rw [above_iff .error .info _ rfl]; simp [passedCheck, Level.rank]
  · rw [above_iff .error .warning _ rfl]; simp [checkWarning, Level.rank]
  · rw [above_iff .error .error _ rfl]; simp [failedCheck, Level.rank]

example : Levelled [passedCheck "a", checkWarning "b", failedCheck "c"] := by
  intro c hc
  simp only [List.mem_cons, List.not_mem_nil, or_false] at hc
  rcases hc with rfl | rfl | rfl
  · exact ⟨.info, rfl⟩
  · exact ⟨.warning, rfl⟩
  · exact ⟨.error, rfl⟩
example : checksAbove "warning" [passedCheck "a", checkWarning "b", failedCheck "c"] =
    .ok [checkWarning "b", failedCheck "c"] := by rfl

/-! ### C24 -/

/-- The values of a type, subclasses included: booleans are integers, measures are floats. -/
inductive IsA (Γ : Env) : V → PyType → Prop
  | int {i} : IsA Γ (.int i) .int
  | boolInt {b} : IsA Γ (.bool b) .int
  | bool {b} : IsA Γ (.bool b) .bool
  | flt {x} : IsA Γ (.flt x) .float
  | measureFlt {c x} : IsA Γ (.measure c x) .float
  | str {x} : IsA Γ (.str x) .str
  | list {l} : IsA Γ (.list l) .list
  | tuple {l} : IsA Γ (.tuple l) .tuple
  | dict {l} : IsA Γ (.dict l) .dict
  | obj {c a} : IsA Γ (.obj c a) (.cls c)
  | objSub {c a c'} : Γ.sub c c' = true → IsA Γ (.obj c a) (.cls c')
  | measure {c x} : IsA Γ (.measure c x) (.cls c)
  | measureSub {c x c'} : Γ.sub c c' = true → IsA Γ (.measure c x) (.cls c')

theorem isInstance_iff (Γ : Env) (v : V) (t : PyType) : isInstance Γ v t = true ↔ IsA Γ v t := by
  constructor
  · intro h
    unfold isInstance at h
    split at h <;> first
      | (rw [Bool.or_eq_true, beq_iff_eq] at h
         rcases h with rfl | h
         · constructor
         · first | exact .objSub h | exact .measureSub h)
      | constructor
      | simp at h
  · intro h
    cases h <;> simp_all [isInstance]

/-- C24 is violated by the code: with level `info`, no check is reported for an integer. -/
theorem C24_info_violated (Γ : Env) (i : Int) : IsA Γ (.int i) .int ∧ typeCheck Γ (.int i) .int "info" = [] :=
  ⟨.int, rfl⟩

/-- C24: whatever the level, a failed check is reported if and only if the value is not of the expected type. -/
theorem C24_failed_iff (Γ : Env) (v : V) (t : PyType) (level : String) :
    (∃ c ∈ typeCheck Γ v t level, c.passed = false) ↔ ¬ IsA Γ v t := by
  rw [← isInstance_iff, Bool.not_eq_true]
  cases hv : isInstance Γ v t <;> cases t <;>
    simp [typeCheck, isTyped, hv, failedCheck, passedCheck]

/-- C24, outside of `int`, `float` and `str`: with level `info` a passed check is reported for a value of the expected
type.  Missing: `int`, `float` and `str`, for which the level is not taken into account. -/
theorem C24_info_partial (Γ : Env) (v : V) (t : PyType) (ht : t ≠ .int ∧ t ≠ .float ∧ t ≠ .str)
    (h : IsA Γ v t) : ∃ c, typeCheck Γ v t "info" = [c] ∧ c.passed = true ∧ c.level = "info" := by
  rw [← isInstance_iff] at h
  refine ⟨passedCheck "is of expected type", ?_, rfl, rfl⟩
  cases t <;> first | (simp at ht; done) | simp [typeCheck, h]

/-- C24: below level `info` nothing is reported for a value of the expected type. -/
theorem C24_quiet (Γ : Env) (v : V) (t : PyType) (level : String) (hl : level ≠ "info")
    (h : IsA Γ v t) : typeCheck Γ v t level = [] := by
  rw [← isInstance_iff] at h
  cases t <;> simp [typeCheck, isTyped, h, hl]

example : IsA ⟨fun _ => {}, fun a b => a == "B" && b == "A"⟩ (.obj "B" []) (.cls "A") := .objSub (by decide)

end DC
