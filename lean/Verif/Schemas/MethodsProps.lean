import Verif.Schemas.Methods
import Verif.Schemas.DefaultProps
import Verif.Types.ArgumentsProps
/-
Property C169: the schemas of the methods of an object.
-/
namespace DC.Sch

open DC.Types (Ann Gen Builtin Signature)

set_option linter.unusedSectionVars false

variable {W : Classes} {o : Owner}

/-! ### Specification -/

/-- The methods a user can call: those of the class that are allowed and whose name does not start with an underscore. -/
def Callable (o : Owner) (m : String) : Prop := m ∈ o.dir ∧ m ∈ o.allowed ∧ m.toList.head? ≠ some '_'

/-! ### Proofs -/

theorem isPrivate_iff (m : String) : isPrivate m = true ↔ m.toList.head? = some '_' := by
  unfold isPrivate
  split
  · rename_i h; simp [h]
  · rename_i h
    cases hm : m.toList with
    | nil => simp
    | cons c cs =>
      simp only [Bool.false_eq_true, List.head?_cons, Option.some.injEq, false_iff]
      rintro rfl
      exact h cs hm

theorem mem_offered (m : String) : m ∈ o.offered ↔ Callable o m := by
  simp only [Owner.offered, List.mem_filter, Callable, Bool.and_eq_true, Bool.not_eq_true', List.contains_iff_mem]
  have := not_iff_not.2 (isPrivate_iff m)
  simp only [Bool.not_eq_true] at this
  tauto

theorem schemasFor_ok : ∀ {ms : List String} {r : List (String × Schema)}, schemasFor W o ms = .ok r →
    List.Forall₂ (fun m x => x.1 = m ∧ methodSchema W o m = .ok x.2) ms r
  | [], r, h => by
    simp only [schemasFor, Except.ok.injEq] at h
    subst h
    exact .nil
  | m :: ms, r, h => by
    simp only [schemasFor] at h
    split at h
    · simp at h
    · rename_i s hs
      split at h
      · simp at h
      · rename_i r' hr
        simp only [Except.ok.injEq] at h
        subst h
        exact .cons ⟨rfl, hs⟩ (schemasFor_ok hr)

theorem formsOf_ok {ids : String → String × String} : ∀ {r : List (String × Schema)} {fs : List (String × List (Key × V))}, formsOf W ids r = .ok fs →
    List.Forall₂ (fun x f => f.1 = x.1 ∧ methodForm W (ids x.1) x.2 = .ok f.2) r fs
  | [], fs, h => by
    simp only [formsOf, Except.ok.injEq] at h
    subst h
    exact .nil
  | (m, s) :: r, fs, h => by
    simp only [formsOf] at h
    split at h
    · simp at h
    · rename_i f hf
      split at h
      · simp at h
      · rename_i fs' hr
        simp only [Except.ok.injEq] at h
        subst h
        exact .cons ⟨rfl, hf⟩ (formsOf_ok hr)

theorem mem_right {α β : Type} {R : α → β → Prop} {l : List α} {r : List β} (h : List.Forall₂ R l r) {x : β} (hx : x ∈ r) : ∃ a ∈ l, R a x := by
  induction h with
  | nil => simp at hx
  | cons ha _ ih =>
    rcases List.mem_cons.1 hx with rfl | hx
    · exact ⟨_, List.mem_cons_self, ha⟩
    · obtain ⟨a, h1, h2⟩ := ih hx
      exact ⟨a, List.mem_cons_of_mem _ h1, h2⟩

theorem lookup_schemas {ms : List String} {r : List (String × Schema)} (h : List.Forall₂ (fun m x => x.1 = m ∧ methodSchema W o m = .ok x.2) ms r)
    (m : String) : (m ∉ ms → r.lookup m = none) ∧ (m ∈ ms → ∃ s, r.lookup m = some s ∧ methodSchema W o m = .ok s) := by
  induction h with
  | nil => simp
  | @cons n x ms r hx _ ih =>
    obtain ⟨x1, x2⟩ := x
    obtain ⟨h1, h2⟩ := hx
    simp only at h1 h2
    subst h1
    by_cases hm : m = x1
    · subst hm
      simp [List.lookup, h2]
    · have hb : (m == x1) = false := by simpa using hm
      simpa [List.lookup, hb, hm] using ih

/-- The methods that have a schema are those a user can call, in order of `dir`, and no others. -/
theorem C169_offered {ids : String → String × String} {fs : List (String × List (Key × V))} (h : methodSchemas W ids o = .ok fs) :
    (fs.map (·.1)).Sublist o.dir ∧ ∀ m, m ∈ fs.map (·.1) ↔ Callable o m := by
  simp only [methodSchemas] at h
  split at h
  · simp at h
  · rename_i r hr
    have h1 := schemasFor_ok hr
    have h2 := formsOf_ok h
    have e1 : r.map (·.1) = o.offered := by
      generalize o.offered = ms at h1
      clear h h2 hr
      induction h1 with
      | nil => rfl
      | cons hx _ ih => simp [hx.1, ih]
    have e2 : fs.map (·.1) = r.map (·.1) := by
      clear h h1 hr e1
      induction h2 with
      | nil => rfl
      | cons hx _ ih => simp [hx.1, ih]
    rw [e2, e1]
    exact ⟨List.filter_sublist, mem_offered⟩

theorem steps_unique {D : List (Key × V)} {vs vs' : List V} (h : Steps D vs) (h' : Steps D vs') : vs = vs' := by
  obtain ⟨s, h1, h2⟩ := h
  obtain ⟨s', h1', h2'⟩ := h'
  rw [h1] at h1'
  simp only [Option.some.injEq, V.list.injEq, List.cons.injEq, V.dict.injEq, and_true] at h1'
  rw [← h1', h2] at h2'
  simpa using h2'

/-- The form of a method has one entry for each of its arguments that is not reserved, in order, which tells its name, its annotation, its
documentation, and its default when it has one.
Missing: classes of which one method has no schema (`C169_others_violated`). -/
theorem C169_form_partial {ids : String → String × String} {fs : List (String × List (Key × V))} (h : methodSchemas W ids o = .ok fs)
    {m : String} {f : List (Key × V)} (hm : (m, f) ∈ fs) {sig : Signature V} (hv : sig.Valid) {first : String × Option V}
    {params : List (String × Option V)} (hp : sig.params = first :: params) (hf : first.1 ∈ Types.reserved)
    (hd : (W.define (o.full m)).spec = sig.spec) : ∃ vs, Steps f vs ∧ Shows W (o.full m) (Types.shown params) vs := by
  simp only [methodSchemas] at h
  split at h
  · simp at h
  · rename_i r hr
    obtain ⟨x, hx, hx1, hx2⟩ := mem_right (formsOf_ok h) hm
    obtain ⟨n, -, hn1, hn2⟩ := mem_right (schemasFor_ok hr) hx
    simp only at hx1 hx2
    rw [← hn1, ← hx1] at hn2
    simp only [methodForm] at hx2
    cases hq : properties W x.2.attributes with
    | error e => rw [hq] at hx2; simp at hx2
    | ok vs =>
      rw [hq] at hx2
      simp only [Except.ok.injEq] at hx2
      obtain ⟨D, hD, hst⟩ : ∃ D, classDict W (ids x.1) (o.full m) x.2 = .ok D ∧ Steps D vs := by
        simp only [classDict, hq]
        exact ⟨_, rfl, _, rfl, rfl⟩
      obtain ⟨⟨vs', hst', hsh⟩, -⟩ := C131_partial hv hp hf hd hn2 hD
      refine ⟨vs, ⟨_, by rw [← hx2]; rfl, rfl⟩, ?_⟩
      rw [steps_unique hst hst']
      exact hsh

/-- The form of a method that can be called has one step, without label, documentation or display, with the identifiers that were drawn for
it, and its description is the documentation of the method. -/
theorem C169_step {ids : String → String × String} {fs : List (String × List (Key × V))} (h : methodSchemas W ids o = .ok fs) {m : String}
    {f : List (Key × V)} (hm : (m, f) ∈ fs) : ∃ (s : Schema) (step : List (Key × V)), methodSchema W o m = .ok s ∧
      f.lookup (.str "steps") = some (.list [.dict step]) ∧ step.lookup (.str "label") = some (.str "") ∧
      step.lookup (.str "documentation") = some (.str "") ∧ step.lookup (.str "displaySetting") = some .none ∧
      step.lookup (.str "displayVariable") = some .none ∧
      step.lookup (.str "group_id") = some (.str (ids m).1) ∧ step.lookup (.str "id") = some (.str (ids m).2) ∧
      f.lookup (.str "description") = some (.str (String.ofList s.documentation)) ∧ f.lookup (.str "type") = some (.str "object") ∧
      f.lookup (.str "spareProperties") = some (.list []) ∧ f.lookup (.str "definitions") = some (.dict []) := by
  simp only [methodSchemas] at h
  split at h
  · simp at h
  · rename_i r hr
    obtain ⟨x, hx, hx1, hx2⟩ := mem_right (formsOf_ok h) hm
    obtain ⟨n, -, hn1, hn2⟩ := mem_right (schemasFor_ok hr) hx
    simp only at hx1 hx2
    rw [← hn1, ← hx1] at hn2
    simp only [methodForm] at hx2
    cases hq : properties W x.2.attributes with
    | error e => rw [hq] at hx2; simp at hx2
    | ok vs =>
      rw [hq] at hx2
      simp only [Except.ok.injEq] at hx2
      subst hx2
      subst hx1
      exact ⟨x.2, _, hn2, rfl, rfl, rfl, rfl, rfl, rfl, rfl, rfl, rfl, rfl, rfl⟩

/-- The default dictionary of a method has one entry for each of these arguments, in order, which stands for its default, or for no value; a
method that cannot be called is a KeyError.
Missing: the entries have the names of the arguments, and are read by position (`C169_arguments_violated`). -/
theorem C169_default_partial {r : List (String × Schema)} (hr : rawMethodSchemas W o = .ok r) {m : String} :
    (¬ Callable o m → methodDefaults W o m = .error .keyError) ∧
    ∀ {sig : Signature V} {first : String × Option V} {params : List (String × Option V)} {D : List (Key × V)}, sig.Valid →
      sig.params = first :: params → first.1 ∈ Types.reserved → (W.define (o.full m)).spec = sig.spec → methodDefaults W o m = .ok D →
      List.Forall₂ (Entry W (o.full m)) (Types.shown params) D := by
  have hl := lookup_schemas (schemasFor_ok hr) m
  refine ⟨fun hc => ?_, fun {sig first params D} hv hp hf hd h => ?_⟩
  · simp only [methodDefaults, hr, hl.1 (fun h => hc ((mem_offered m).1 h))]
  · by_cases hc : m ∈ o.offered
    · obtain ⟨s, h1, h2⟩ := hl.2 hc
      simp only [methodDefaults, hr, h1] at h
      have hm : Types.memberAttributes (W.define (o.full m)).spec = .ok (Types.shown params) := by rw [hd]; exact Types.C102_partial hv hp hf
      exact defaultDict_entries (classSchema_ok hm h2).2 h
    · simp only [methodDefaults, hr, hl.1 hc] at h
      simp at h

theorem schemasFor_error : ∀ {ms : List String} {m : String}, m ∈ ms → (∀ s, methodSchema W o m ≠ .ok s) → ∃ e, schemasFor W o ms = .error e
  | n :: ms, m, hm, hs => by
    simp only [schemasFor]
    cases hn : methodSchema W o n with
    | error e => exact ⟨e, rfl⟩
    | ok s =>
      rcases List.mem_cons.1 hm with rfl | hm
      · exact absurd hn (hs s)
      · obtain ⟨e, he⟩ := schemasFor_error hm hs
        simp only [he]
        exact ⟨e, rfl⟩

/-- The schema of a method is not independent of the others: when one method that can be called has none, as when one of its arguments is not
annotated, no method has any, and there is no default dictionary. -/
theorem C169_others_violated {m : String} (hm : Callable o m) (hs : ∀ s, methodSchema W o m ≠ .ok s) (ids : String → String × String) :
    (∃ e, methodSchemas W ids o = .error e) ∧ ∀ n, ∃ e, methodDefaults W o n = .error e := by
  obtain ⟨e, he⟩ := schemasFor_error ((mem_offered m).2 hm) hs
  have hr : rawMethodSchemas W o = .error e := he
  exact ⟨⟨e, by simp only [methodSchemas, hr]⟩, fun n => ⟨e, by simp only [methodDefaults, hr]⟩⟩

/-- The keys of a dictionary of arguments, which are strings. -/
def stringKeys (D : List (Key × V)) : List (String × V) := D.filterMap fun x => match x.1 with
  | .str k => some (k, x.2)
  | _ => none

/-- The default dictionary of a method, given back as its arguments, gives no argument at all: it is written with the names of the arguments
and read with their positions. -/
theorem C169_arguments_violated {r : List (String × Schema)} (hr : rawMethodSchemas W o = .ok r) {m : String} {sig : Signature V}
    {first : String × Option V} {params : List (String × Option V)} {D : List (Key × V)} (hv : sig.Valid) (hp : sig.params = first :: params)
    (hf : first.1 ∈ Types.reserved) (hd : (W.define (o.full m)).spec = sig.spec) (hn : ∀ p ∈ params, ∀ i : Nat, p.1 ≠ toString i)
    (h : methodDefaults W o m = .ok D) (W' : World) (fuel : Nat) (mro : Arg.Ann → Option Nat) (spec : Arg.Spec) :
    Arg.dictToArguments W' fuel mro spec (stringKeys D) = .ok [] := by
  have h2 := (C169_default_partial hr (m := m)).2 hv hp hf hd h
  refine Arg.C116_names_violated fun e he i => ?_
  obtain ⟨x, hx, hxe⟩ := List.mem_filterMap.1 he
  obtain ⟨p, hp1, hp2⟩ := mem_right h2 hx
  rw [hp2.1] at hxe
  simp only [Option.some.injEq] at hxe
  rw [← hxe]
  exact hn p (List.mem_of_mem_filter hp1) i

/-- The signature of a method of a car, `def drive(self, distance: int, driver: str = "")`.  Example only. -/
def driveSig : Signature V := ⟨[("self", none), ("distance", none), ("driver", some (.str ""))], []⟩

/-- A class with a method that can be called, one that is not allowed, and a private one. -/
def carOwner : Owner := ⟨"demo.Car", ["_hidden", "drive", "stop"], ["drive", "_hidden", "fly"]⟩

/-- The classes, with the method.  Example only. -/
def demoMethods : Classes := { demo with define := fun c => if c = "demo.Car.drive" then
  ⟨driveSig.spec, [("distance", .builtin .int), ("driver", .builtin .str), ("return", .builtin .bool)], none, []⟩ else demo.define c }

/-- Not vacuous: the only method offered, its default dictionary, and its signature. -/
example : (∃ fs, methodSchemas demoMethods (fun _ => ("g", "i")) carOwner = .ok fs ∧ fs.map (·.1) = ["drive"]) ∧
    methodDefaults demoMethods carOwner "drive" = .ok [(.str "distance", .none), (.str "driver", .str "")] ∧
    (demoMethods.define (carOwner.full "drive")).spec = driveSig.spec ∧ driveSig.Valid := by
  refine ⟨⟨_, rfl, rfl⟩, rfl, rfl, by decide, [("self", none), ("distance", none)], [("driver", some (.str ""))], rfl, ?_, ?_⟩ <;> simp

/-- Not vacuous: a method with an argument that is not annotated. -/
example : Callable carOwner "drive" ∧ ∀ s, methodSchema { demo with define := fun _ => ⟨driveSig.spec, [("driver", .builtin .str)], none, []⟩ }
    carOwner "drive" ≠ .ok s := by
  refine ⟨⟨by decide, by decide, by decide⟩, fun s h => ?_⟩
  have : methodSchema { demo with define := fun _ => ⟨driveSig.spec, [("driver", .builtin .str)], none, []⟩ } carOwner "drive" =
    .error .valueError := rfl
  rw [this] at h
  simp at h

end DC.Sch
