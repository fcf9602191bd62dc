import Verif.Workflow.CatalogueRead
/-
C122: the declaration of a block in a script builds the block.
-/
set_option linter.unusedSectionVars false
set_option linter.unusedSimpArgs false
namespace DC.Cat
open DC.Wkf

variable {τ α ω : Type} (E : Setting τ α ω)

/-! ### Specification -/

/-- A text stands for itself between double (`true`) or single quotes.  Used in proofs only (no code). -/
def Plain (double : Bool) (s : String) : Prop := E.lit double s = .ok s

/-- What the declaration of a block must avoid, class by class: references of another class than the one which is written, texts which do not
stand for themselves between the quotes which are written, views of one point or of no axis, a block of strings out of the origin, and the
classes whose declaration never works.  Used in proofs only (no code). -/
def Writable (b : Blk τ α ω) : Prop :=
  match b.kind with
  | .classMethod m => m.kind = .classMethod ∧ Plain E false m.name
  | .modelMethod m => m.kind = .method ∧ Plain E false m.name
  | .multiPlot s _ _ => Plain E false s
  | .multiObject s vs _ => Plain E false s ∧ Plain E false "" ∧ ∀ v ∈ vs, Plain E false v.name ∧ (∀ a ∈ v.attributes, Plain E false a) ∧
      (if v.scatter then v.attributes.length ≠ 1 else v.attributes ≠ [])
  | .display _ s _ => Plain E false s.name
  | .modelAttribute a => Plain E false a
  | .getAttribute r => r.kind = .attribute ∧ Plain E true r.name
  | .strings _ s => Plain E false s ∧ Plain E false b.name ∧ b.position = (0, 0)
  | .export m _ e f => m.kind = .method ∧ Plain E false m.name ∧ Plain E false e ∧ Plain E false f
  | .archive _ f => Plain E false f
  | .filter _ _ | .oldMultiPlot _ _ | .oldDisplay _ _ _ | .setAttribute _ | .workflow _ | .forEach _ _ => False
  | _ => True

/-- Two imported classes do not have the same name.  Used in proofs only (no code). -/
def Unambiguous (imports : List Cls) : Prop := ∀ c ∈ imports, ∀ c' ∈ imports, c.name = c'.name → c = c'

/-! ### Names -/

theorem nameOf_ok {imports : List Cls} (h : Unambiguous imports) {c : Cls} (hc : c ∈ imports) : nameOf imports c.name = .ok c := by
  unfold nameOf
  cases hf : imports.reverse.find? (fun d => d.name == c.name) with
  | none =>
    have := List.find?_eq_none.1 hf c (by simpa using hc)
    simp at this
  | some d =>
    have h1 := List.find?_some hf
    have h2 := List.mem_of_find?_eq_some hf
    simp only [beq_iff_eq] at h1
    rw [h d (by simpa using h2) c hc h1]

theorem tagOf_ok (t : Tag) : tagOf t.cls = .ok t := by cases t <;> decide

theorem refOf_ok (r : RefClass) : refOf r.cls = .ok r := by cases r <;> decide

/-- The name of a class of blocks, or of references, among the imports. -/
theorem tagName {imports : List Cls} (h : Unambiguous imports) {t : Tag} (hc : t.cls ∈ imports) : nameOf imports t.name = .ok t.cls :=
  nameOf_ok h hc

theorem refName {imports : List Cls} (h : Unambiguous imports) {r : RefClass} (hc : r.cls ∈ imports) : nameOf imports r.name = .ok r.cls :=
  nameOf_ok h hc

theorem argRef {imports : List Cls} (h : Unambiguous imports) {r : Ref} {d : Bool} (h1 : r.kind.cls ∈ imports) (h2 : r.cls ∈ imports)
    (h3 : Plain E d r.name) : argVal E imports (.ref r.kind.name r.cls.name d r.name) = .ok (.ref r) := by
  have h3' : E.lit d r.name = .ok r.name := h3
  simp [argVal, refName h h1, refOf_ok, nameOf_ok h h2, h3', bind, Except.bind]

theorem argText {imports : List Cls} {d : Bool} {s : String} (h : Plain E d s) : argVal E imports (.text d s) = .ok (.str s) := by
  have h' : E.lit d s = .ok s := h
  simp [argVal, h', bind, Except.bind]

theorem viewOf_ok {imports : List Cls} (h : Unambiguous imports) (v : View) (hc : viewCls v.scatter ∈ imports) (he : Plain E false "")
    (hv : Plain E false v.name ∧ (∀ a ∈ v.attributes, Plain E false a) ∧
      (if v.scatter then v.attributes.length ≠ 1 else v.attributes ≠ [])) :
    viewOf E imports ((viewCls v.scatter).name, v.scatter, quoted v.attributes, v.name) = .ok v := by
  obtain ⟨s, as, n⟩ := v
  obtain ⟨h1, h2, h3⟩ := hv
  have h1' : E.lit false n = .ok n := h1
  have he' : E.lit false "" = .ok "" := he
  have hn := nameOf_ok h hc
  have hq : (quoted as).mapM (E.lit false) = .ok (quoted as) := by
    apply mapM_id
    intro a ha
    cases as with
    | nil => simp only [quoted, List.mem_singleton] at ha; rw [ha]; exact he
    | cons b as => exact h2 a ha
  have hne : viewCls false ≠ viewCls true := by decide
  cases s with
  | true =>
    simp only [if_true] at h3
    simp only [viewOf, hn, hq, h1', bind, Except.bind, if_true]
    cases as with
    | nil => rfl
    | cons a as => cases as with
      | nil => simp at h3
      | cons b as => rfl
  | false =>
    simp only [Bool.false_eq_true, if_false] at h3
    simp only [viewOf, hn, hq, h1', bind, Except.bind, hne, if_false, if_true]
    cases as with
    | nil => simp at h3
    | cons a as => rfl

theorem argVal_pos {imports : List Cls} (p : Int × Int) : argVal E imports (.pos p) = .ok (.pos p) := rfl
theorem argVal_int {imports : List Cls} (i : Int) : argVal E imports (.int i) = .ok (.int i) := rfl
theorem argVal_bool {imports : List Cls} (b : Bool) : argVal E imports (.bool b) = .ok (.bool b) := rfl
theorem argVal_strs {imports : List Cls} (l : List String) : argVal E imports (.strs l) = .ok (.strs l) := rfl
theorem argVal_ints {imports : List Cls} (l : List Int) : argVal E imports (.ints l) = .ok (.ints l) := rfl
theorem argVal_name {imports : List Cls} {x : String} {c : Cls} (h : nameOf imports x = .ok c) :
    argVal E imports (.name x) = .ok (.cls c) := by
  simp [argVal, h, bind, Except.bind]

/-- The declaration of a block, run after the imports, calls the constructor with the arguments of the block. -/
theorem run_toScript (b : Blk τ α ω) (hb : FromClass E b) (hn : Plain E true b.name) (hw : Writable E b) :
    ∃ d l, toScript b = .ok (d, l) ∧ ∀ imports, (∀ c ∈ l, c ∈ imports) → Unambiguous imports →
      run E imports d = construct E b.kind b.name b.position := by
  have hlen : ∀ n, b.kind = .sequence n ∨ b.kind = .concatenate n → b.ins.length = n := by
    intro n hk
    obtain ⟨c, h1, -, -, h4, -⟩ := hb
    have h5 := (construct_inv E h1).1
    rw [← h4.length_eq]
    rcases hk with hk | hk
    · rw [hk] at h5
      simp only [Kind.kept, ports, Except.ok.injEq, Prod.mk.injEq] at h5
      rw [← h5.1]; simp [numbered]
    · rw [hk] at h5
      simp only [Kind.kept, ports, Except.ok.injEq, Prod.mk.injEq] at h5
      rw [← h5.1]; simp [numbered]
  unfold Writable at hw
  cases hk : b.kind with
  | instantiate c =>
    refine ⟨_, _, by simp only [toScript, hk]; rfl, fun imports hi hu => ?_⟩
    have := tagName hu (t := .instantiate) (hi _ (by simp [Kind.tag]))
    have h2 := nameOf_ok hu (c := c) (hi _ (by simp))
    simp only [Tag.name] at this
    simp [run, this, tagOf_ok, argVals, baseArgs, argText E hn, argVal_name E h2, bind, Except.bind, params, callKind, needed, List.lookup, PVal.cls!,
      PVal.str!, callPos, argVal_pos]
  | classMethod m =>
    rw [hk] at hw
    refine ⟨_, _, by simp only [toScript, hk]; rfl, fun imports hi hu => ?_⟩
    have := tagName hu (t := .classMethod) (hi _ (by simp [Kind.tag]))
    have h2 := argRef E hu (r := m) (d := false) (hi _ (by simp)) (hi _ (by simp)) hw.2
    rw [hw.1] at h2
    simp only [Tag.name, RefClass.name] at this h2
    simp [run, this, tagOf_ok, argVals, baseArgs, argText E hn, h2, bind, Except.bind, params, callKind, needed, List.lookup, PVal.ref!,
      PVal.str!, callPos, argVal_pos, argVal_int, argVal_bool, argVal_strs, argVal_ints]
  | modelMethod m =>
    rw [hk] at hw
    refine ⟨_, _, by simp only [toScript, hk]; rfl, fun imports hi hu => ?_⟩
    have := tagName hu (t := .modelMethod) (hi _ (by simp [Kind.tag]))
    have h2 := argRef E hu (r := m) (d := false) (hi _ (by simp)) (hi _ (by simp)) hw.2
    rw [hw.1] at h2
    simp only [Tag.name, RefClass.name] at this h2
    simp [run, this, tagOf_ok, argVals, baseArgs, argText E hn, h2, bind, Except.bind, params, callKind, needed, List.lookup, PVal.ref!,
      PVal.str!, callPos, argVal_pos, argVal_int, argVal_bool, argVal_strs, argVal_ints]
  | sequence n =>
    refine ⟨_, _, by simp only [toScript, hk]; rfl, fun imports hi hu => ?_⟩
    have := tagName hu (t := .sequence) (hi _ (by simp [Kind.tag]))
    simp only [Tag.name] at this
    simp [run, this, tagOf_ok, argVals, baseArgs, argText E hn, bind, Except.bind, params, callKind, needed, List.lookup, PVal.count!,
      PVal.str!, callPos, argVal_pos, argVal_int, argVal_bool, argVal_strs, argVal_ints, hlen n (.inl hk)]
  | concatenate n =>
    refine ⟨_, _, by simp only [toScript, hk]; rfl, fun imports hi hu => ?_⟩
    have := tagName hu (t := .concatenate) (hi _ (by simp [Kind.tag]))
    simp only [Tag.name] at this
    simp [run, this, tagOf_ok, argVals, baseArgs, argText E hn, bind, Except.bind, params, callKind, needed, List.lookup, PVal.count!,
      PVal.str!, callPos, argVal_pos, argVal_int, argVal_bool, argVal_strs, argVal_ints, hlen n (.inr hk)]
  | unpacker l =>
    refine ⟨_, _, by simp only [toScript, hk]; rfl, fun imports hi hu => ?_⟩
    have := tagName hu (t := .unpacker) (hi _ (by simp [Kind.tag]))
    simp only [Tag.name] at this
    simp [run, this, tagOf_ok, argVals, baseArgs, argText E hn, bind, Except.bind, params, callKind, needed, List.lookup, PVal.ints!,
      PVal.str!, callPos, argVal_pos, argVal_int, argVal_bool, argVal_strs, argVal_ints]
  | flatten =>
    refine ⟨_, _, by simp only [toScript, hk]; rfl, fun imports hi hu => ?_⟩
    have := tagName hu (t := .flatten) (hi _ (by simp [Kind.tag]))
    simp only [Tag.name] at this
    simp [run, this, tagOf_ok, argVals, baseArgs, argText E hn, bind, Except.bind, params, callKind, needed, List.lookup,
      PVal.str!, callPos, argVal_pos, argVal_int, argVal_bool, argVal_strs, argVal_ints]
  | product n =>
    refine ⟨_, _, by simp only [toScript, hk]; rfl, fun imports hi hu => ?_⟩
    have := tagName hu (t := .product) (hi _ (by simp [Kind.tag]))
    simp only [Tag.name] at this
    simp [run, this, tagOf_ok, argVals, baseArgs, argText E hn, bind, Except.bind, params, callKind, needed, List.lookup, PVal.count!,
      PVal.str!, callPos, argVal_pos, argVal_int, argVal_bool, argVal_strs, argVal_ints]
  | multiPlot s as l =>
    rw [hk] at hw
    refine ⟨_, _, by simp only [toScript, hk]; rfl, fun imports hi hu => ?_⟩
    have := tagName hu (t := .multiPlot) (hi _ (by simp [Kind.tag]))
    simp only [Tag.name] at this
    simp [run, this, tagOf_ok, argVals, displayArgs, argText E hn, argText E hw, bind, Except.bind, params, callKind, needed, List.lookup,
      PVal.strs!, PVal.bool!, PVal.str!, callPos, argVal_pos, argVal_int, argVal_bool, argVal_strs, argVal_ints]
  | multiObject s vs l =>
    rw [hk] at hw
    refine ⟨_, _, by simp only [toScript, hk]; rfl, fun imports hi hu => ?_⟩
    have := tagName hu (t := .multiObject) (hi _ (by simp [Kind.tag]))
    simp only [Tag.name] at this
    have hvs : (vs.map fun v => ((viewCls v.scatter).name, v.scatter, quoted v.attributes, v.name)).mapM (viewOf E imports) = .ok vs := by
      apply mapM_ok
      intro v hv
      refine viewOf_ok E hu v (hi _ ?_) hw.2.1 (hw.2.2 v hv)
      simp only [List.mem_append, List.mem_map]
      exact .inl ⟨v, hv, rfl⟩
    have hvs' : argVal E imports (.views (vs.map fun v => ((viewCls v.scatter).name, v.scatter, quoted v.attributes, v.name))) =
        .ok (.views vs) := by
      simp only [argVal, hvs, bind, Except.bind]
    simp [run, this, tagOf_ok, argVals, displayArgs, argText E hn, argText E hw.1, hvs', bind, Except.bind, params, callKind, needed, List.lookup,
      PVal.views!, PVal.bool!, PVal.str!, callPos, argVal_pos, argVal_int, argVal_bool, argVal_strs, argVal_ints]
  | display t s l =>
    rw [hk] at hw
    refine ⟨_, _, by simp only [toScript, hk]; rfl, fun imports hi hu => ?_⟩
    have := tagName hu (t := t.tag) (hi _ (by simp [Kind.tag]))
    have h2 := argRef E hu (r := s) (d := false) (hi _ (by simp)) (hi _ (by simp)) hw
    cases t <;> simp only [Shown.tag] at this <;>
    simp [Kind.tag, Shown.tag, run, this, tagOf_ok, argVals, displayArgs, argText E hn, h2, bind, Except.bind, params, callKind, needed,
      List.lookup, PVal.ref!, PVal.bool!, PVal.str!, callPos, argVal_pos, argVal_int, argVal_bool, argVal_strs, argVal_ints]
  | modelAttribute a =>
    rw [hk] at hw
    refine ⟨_, _, by simp only [toScript, hk]; rfl, fun imports hi hu => ?_⟩
    have := tagName hu (t := .modelAttribute) (hi _ (by simp [Kind.tag]))
    simp only [Tag.name] at this
    simp [run, this, tagOf_ok, argVals, baseArgs, argText E hn, argText E hw, bind, Except.bind, params, callKind, needed, List.lookup,
      PVal.str!, callPos, argVal_pos, argVal_int, argVal_bool, argVal_strs, argVal_ints]
  | getAttribute r =>
    rw [hk] at hw
    refine ⟨_, _, by simp only [toScript, hk]; rfl, fun imports hi hu => ?_⟩
    have := tagName hu (t := .getAttribute) (hi _ (by simp [Kind.tag]))
    have h2 := argRef E hu (r := r) (d := true) (hi _ (by simp)) (hi _ (by simp)) hw.2
    rw [hw.1] at h2
    simp only [Tag.name, RefClass.name] at this h2
    simp [run, this, tagOf_ok, argVals, baseArgs, argText E hn, h2, bind, Except.bind, params, callKind, needed, List.lookup, PVal.ref!,
      PVal.str!, callPos, argVal_pos, argVal_int, argVal_bool, argVal_strs, argVal_ints]
  | sum n =>
    refine ⟨_, _, by simp only [toScript, hk]; rfl, fun imports hi hu => ?_⟩
    have := tagName hu (t := .sum) (hi _ (by simp [Kind.tag]))
    simp only [Tag.name] at this
    simp [run, this, tagOf_ok, argVals, baseArgs, argText E hn, bind, Except.bind, params, callKind, needed, List.lookup, PVal.count!,
      PVal.str!, callPos, argVal_pos, argVal_int, argVal_bool, argVal_strs, argVal_ints]
  | substraction =>
    refine ⟨_, _, by simp only [toScript, hk]; rfl, fun imports hi hu => ?_⟩
    have := tagName hu (t := .substraction) (hi _ (by simp [Kind.tag]))
    simp only [Tag.name] at this
    simp [run, this, tagOf_ok, argVals, baseArgs, argText E hn, bind, Except.bind, params, callKind, needed, List.lookup,
      PVal.str!, callPos, argVal_pos, argVal_int, argVal_bool, argVal_strs, argVal_ints]
  | strings n s =>
    rw [hk] at hw
    refine ⟨_, _, by simp only [toScript, hk]; rfl, fun imports hi hu => ?_⟩
    have := tagName hu (t := .strings) (hi _ (by simp [Kind.tag]))
    simp only [Tag.name] at this
    simp [run, this, tagOf_ok, argVals, argText E hw.1, argText E hw.2.1, bind, Except.bind, params, callKind, needed, List.lookup, PVal.count!,
      PVal.str!, callPos, argVal_pos, argVal_int, argVal_bool, argVal_strs, argVal_ints, hw.2.2]
  | «export» m t e f =>
    rw [hk] at hw
    refine ⟨_, _, by simp only [toScript, hk]; rfl, fun imports hi hu => ?_⟩
    have := tagName hu (t := .export) (hi _ (by simp [Kind.tag]))
    have h2 := argRef E hu (r := m) (d := false) (hi _ (by simp)) (hi _ (by simp)) hw.2.1
    rw [hw.1] at h2
    simp only [Tag.name, RefClass.name] at this h2
    simp [run, this, tagOf_ok, argVals, baseArgs, argText E hn, argText E hw.2.2.1, argText E hw.2.2.2, h2, bind, Except.bind, params, callKind,
      needed, List.lookup, PVal.ref!, PVal.bool!, PVal.str!, callPos, argVal_pos, argVal_int, argVal_bool, argVal_strs, argVal_ints]
  | archive n f =>
    rw [hk] at hw
    refine ⟨_, _, by simp only [toScript, hk]; rfl, fun imports hi hu => ?_⟩
    have := tagName hu (t := .archive) (hi _ (by simp [Kind.tag]))
    simp only [Tag.name] at this
    simp [run, this, tagOf_ok, argVals, baseArgs, argText E hn, argText E hw, bind, Except.bind, params, callKind, needed, List.lookup,
      PVal.count!, PVal.str!, callPos, argVal_pos, argVal_int, argVal_bool, argVal_strs, argVal_ints]
  | _ => rw [hk] at hw; exact hw.elim

end DC.Cat
