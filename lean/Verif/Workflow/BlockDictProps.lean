import Verif.Workflow.CatalogueProps
/-
C195: what the dict of a block tells.
-/
set_option linter.unusedSectionVars false
namespace DC.Cat
open DC.Wkf

variable {τ α ω : Type} (E : Setting τ α ω)

/-! ### Specification -/

/-- What a dict tells at a path of keys and of indices. -/
def J.tells : J → List (String ⊕ Nat) → Option J
  | j, [] => some j
  | .dict l, .inl k :: p => match l.lookup k with
    | some x => x.tells p
    | none => none
  | .list l, .inr i :: p => match l[i]? with
    | some x => x.tells p
    | none => none
  | _, _ :: _ => none

/-- The dict tells a text under a key. -/
def J.says (j : J) (k s : String) : Prop := j.tells [.inl k] = some (.str s)

/-- The dict of a reference to something of a class tells the class, the name and the kind of the reference. -/
def TellsRef (j : J) (kind module class_ name : String) : Prop :=
  j.says "class_" (module ++ "." ++ class_) ∧ j.says "name" name ∧ j.says "object_class" ("dessia_common.typings." ++ kind)

/-- The dict of a port tells its name, its label, its place, whether it is locked, and its value if it has one. -/
def TellsVar (j : J) (x : Var τ α) : Prop :=
  j.says "object_class" "dessia_common.workflow.core.Variable" ∧ j.says "name" x.name ∧ j.says "label" x.label ∧
  j.says "type_" (E.serT x.type) ∧ j.says "pretty_type" (E.prettyT x.type) ∧
  j.tells [.inl "position", .inr 0] = some (.int x.position.1) ∧ j.tells [.inl "position", .inr 1] = some (.int x.position.2) ∧
  j.tells [.inl "locked"] = some (.bool x.lockFlag) ∧ j.tells [.inl "default_value"] = x.default.map E.ser

/-! ### Lemmas -/

theorem varJ_tells {x : Var τ α} {j : J} (h : varJ E x = .ok j) : TellsVar E j x := by
  rcases x with ⟨n, t, l, ⟨p, q⟩, d, f⟩
  cases f <;> cases d <;> simp [varJ, Var.locked, bind, Except.bind] at h <;> subst h <;>
    simp [TellsVar, J.says, J.tells, List.lookup, posJ]

theorem mapM_tells {xs : List (Var τ α)} {js : List J} (h : xs.mapM (varJ E) = .ok js) (i : Nat) (x : Var τ α) (hx : xs[i]? = some x) :
    ∃ j, js[i]? = some j ∧ TellsVar E j x := by
  have h2 := Py.mapM_ok.mp h
  induction h2 generalizing i with
  | nil => simp at hx
  | cons hab hr ih =>
    cases i with
    | zero =>
      simp only [List.getElem?_cons_zero, Option.some.injEq] at hx
      subst hx
      exact ⟨_, rfl, varJ_tells E hab⟩
    | succ i => exact ih (Py.mapM_ok.mpr hr) i hx

theorem tells_key {l : List (String × J)} {k : String} {x : J} (h : l.lookup k = some x) (p : List (String ⊕ Nat)) :
    (J.dict l).tells (.inl k :: p) = x.tells p := by rw [J.tells, h]

theorem tells_idx {l : List J} {i : Nat} {x : J} (h : l[i]? = some x) (p : List (String ⊕ Nat)) :
    (J.list l).tells (.inr i :: p) = x.tells p := by rw [J.tells, h]

theorem tells_nil (j : J) : j.tells [] = some j := by cases j <;> rw [J.tells]

theorem toJ_tells (r : Ref) : TellsRef r.toJ r.kind.name r.cls.module r.cls.name r.name := by
  simp [TellsRef, J.says, J.tells, Ref.toJ, List.lookup, Cls.full, RefClass.cls]

theorem write_ok {b : Blk τ α ω} {d : J} (h : write E b = .ok d) : ∃ xs ys l, b.ins.mapM (varJ E) = .ok xs ∧ b.outs.mapM (varJ E) = .ok ys ∧
    kindJ E b.written = .ok l ∧ d = .dict (("object_class", .str b.kind.tag.cls.full) :: ("name", .str b.name) :: ("inputs", .list xs) ::
      ("outputs", .list ys) :: ("position", posJ b.position) :: l) := by
  unfold write baseJ at h
  cases hx : b.ins.mapM (varJ E) with
  | error e => simp [hx, bind, Except.bind] at h
  | ok xs =>
    cases hy : b.outs.mapM (varJ E) with
    | error e => simp [hx, hy, bind, Except.bind] at h
    | ok ys =>
      cases hk : kindJ E b.written with
      | error e => simp [hx, hy, hk, bind, Except.bind] at h
      | ok l =>
        simp only [hx, hy, hk, bind, Except.bind, Except.ok.injEq] at h
        exact ⟨xs, ys, l, rfl, rfl, rfl, h.symm⟩

/-! ### The theorems -/

/-- The dict of a block tells its name, its place, and each of its ports at its rank. -/
theorem C195_base (b : Blk τ α ω) (d : J) (h : write E b = .ok d) :
    d.says "object_class" ("dessia_common.workflow.blocks." ++ b.kind.tag.name) ∧ d.says "name" b.name ∧
    d.tells [.inl "position", .inr 0] = some (.int b.position.1) ∧ d.tells [.inl "position", .inr 1] = some (.int b.position.2) ∧
    (∀ i x, b.ins[i]? = some x → ∃ j, d.tells [.inl "inputs", .inr i] = some j ∧ TellsVar E j x) ∧
    (∀ i x, b.outs[i]? = some x → ∃ j, d.tells [.inl "outputs", .inr i] = some j ∧ TellsVar E j x) := by
  obtain ⟨xs, ys, l, hx, hy, hk, rfl⟩ := write_ok E h
  refine ⟨?_, ?_, ?_, ?_, ?_, ?_⟩
  · rw [J.says, tells_key (by rfl), tells_nil]
    refine congrArg (fun s => some (J.str s)) ?_
    cases b.kind.tag <;> decide
  · rw [J.says, tells_key (by rfl), tells_nil]
  · rw [tells_key (by rfl), posJ, tells_idx (by rfl), tells_nil]
  · rw [tells_key (by rfl), posJ, tells_idx (by rfl), tells_nil]
  · intro i x hi
    obtain ⟨j, hj, ht⟩ := mapM_tells E hx i x hi
    exact ⟨j, by rw [tells_key (by rfl), tells_idx hj, tells_nil], ht⟩
  · intro i x hi
    obtain ⟨j, hj, ht⟩ := mapM_tells E hy i x hi
    exact ⟨j, by rw [tells_key (by rfl), tells_idx hj, tells_nil], ht⟩

example : ∃ d, write shop (locked (made (.modelMethod ⟨.method, car, "drive"⟩) "go" (3, 4))) = .ok d ∧
    d.tells [.inl "inputs", .inr 0, .inl "default_value"] = some (.str "four") ∧ d.tells [.inl "position", .inr 1] = some (.int 4) :=
  ⟨_, rfl, by rfl, by rfl⟩

/-- The dict of the block of a method tells the class, the name and the kind of the method. -/
theorem C195_method (b : Blk τ α ω) (m : Ref) (d : J) (h : write E b = .ok d)
    (hk : b.kind = .classMethod m ∨ b.kind = .modelMethod m ∨ ∃ t e f, b.kind = .export m t e f) :
    ∃ j, d.tells [.inl "method_type"] = some j ∧ TellsRef j m.kind.name m.cls.module m.cls.name m.name := by
  obtain ⟨xs, ys, l, hx, hy, hl, rfl⟩ := write_ok E h
  refine ⟨m.toJ, ?_, toJ_tells m⟩
  rcases hk with hk | hk | ⟨t, e, f, hk⟩ <;> simp only [Blk.written, hk, kindJ, Except.ok.injEq] at hl <;> subst hl <;>
    rw [tells_key (by rfl), tells_nil]

/-- The dict of a block which reads or sets an attribute tells the class and the name of the attribute, that of a block which shows a view
tells the class and the name of the view. -/
theorem C195_attribute (b : Blk τ α ω) (r : Ref) (d : J) (h : write E b = .ok d) :
    ((b.kind = .getAttribute r ∨ b.kind = .setAttribute r) →
      ∃ j, d.tells [.inl "attribute_type"] = some j ∧ TellsRef j r.kind.name r.cls.module r.cls.name r.name) ∧
    (∀ t l, b.kind = .display t r l → d.tells [.inl "load_by_default"] = some (.bool l) ∧
      ∃ j, d.tells [.inl "selector"] = some j ∧ TellsRef j r.kind.name r.cls.module r.cls.name r.name) := by
  obtain ⟨xs, ys, l, hx, hy, hl, rfl⟩ := write_ok E h
  refine ⟨fun hk => ⟨r.toJ, ?_, toJ_tells r⟩, fun t v hk => ⟨?_, r.toJ, ?_, toJ_tells r⟩⟩
  · rcases hk with hk | hk <;> simp only [Blk.written, hk, kindJ, Except.ok.injEq] at hl <;> subst hl <;>
      rw [tells_key (by rfl), tells_nil]
  · simp only [Blk.written, hk, kindJ, Except.ok.injEq] at hl
    subst hl
    rw [tells_key (by rfl), tells_nil]
  · simp only [Blk.written, hk, kindJ, Except.ok.injEq] at hl
    subst hl
    rw [tells_key (by rfl), tells_nil]

example : ∃ d, write shop (made (.getAttribute ⟨.attribute, car, "price"⟩)) = .ok d ∧
    d.tells [.inl "attribute_type", .inl "class_"] = some (.str "shop.cars.Car") ∧
    d.tells [.inl "attribute_type", .inl "object_class"] = some (.str "dessia_common.typings.AttributeType") := ⟨_, rfl, by rfl, by rfl⟩

/-- The dict of a `Filter` tells its operator and each of its filters at its rank. -/
theorem C195_filter (b : Blk τ α ω) (fs : List Filt) (o : String) (d : J) (hk : b.kind = .filter fs o) (h : write E b = .ok d) :
    d.says "logical_operator" o ∧ ∀ (i : Nat) f, fs[i]? = some f → ∃ j, d.tells [.inl "filters", .inr i] = some j ∧
      j.says "object_class" "dessia_common.core.DessiaFilter" ∧ j.says "attribute" f.attr ∧ j.says "comparison_operator" f.operator ∧
      j.tells [.inl "bound"] = some (.int f.bound) ∧ j.says "name" f.name := by
  obtain ⟨xs, ys, l, hx, hy, hl, rfl⟩ := write_ok E h
  simp only [Blk.written, hk, kindJ, Except.ok.injEq] at hl
  subst hl
  refine ⟨by rw [J.says, tells_key (by rfl), tells_nil], ?_⟩
  intro i f hf
  refine ⟨f.toJ, ?_, ?_⟩
  · rw [tells_key (by rfl), tells_idx (x := f.toJ) (by rw [List.getElem?_map, hf]; rfl), tells_nil]
  · simp [J.says, J.tells, Filt.toJ, List.lookup]
    decide

example : ∃ d, write shop (made (.filter [⟨"price", "gt", 3, "f"⟩] "or")) = .ok d ∧
    d.tells [.inl "filters", .inr 0, .inl "bound"] = some (.int 3) := ⟨_, rfl, by rfl⟩

/-- The dicts of the blocks of several views and of several plots tell the name of what they show, of any class, and each of the views at its rank. -/
theorem C195_plots (b : Blk τ α ω) (s : String) (l : Bool) (d : J) (h : write E b = .ok d) :
    (∀ as, b.kind = .multiPlot s as l → d.says "selector_name" s ∧ d.tells [.inl "load_by_default"] = some (.bool l) ∧
      (∃ j, d.tells [.inl "selector"] = some j ∧ TellsRef j "PlotDataType" "dessia_common.core" "DessiaObject" s) ∧
      ∀ (i : Nat) a, as[i]? = some a → d.tells [.inl "attributes", .inr i] = some (.str a)) ∧
    (∀ vs, b.kind = .multiObject s vs l → d.says "selector_name" s ∧ d.tells [.inl "load_by_default"] = some (.bool l) ∧
      (∃ j, d.tells [.inl "selector"] = some j ∧ TellsRef j "PlotDataType" "dessia_common.core" "DessiaObject" s) ∧
      ∀ (i : Nat) v, vs[i]? = some v → ∃ j, d.tells [.inl "configurations", .inr i] = some j ∧ j.says "name" v.name ∧
        j.says "object_class" ("dessia_common.workflow.blocks." ++ if v.scatter then "ScatterView" else "ParallelView") ∧
        ∀ (k : Nat) a, v.attributes[k]? = some a → j.tells [.inl "attributes", .inr k] = some (.str a)) := by
  obtain ⟨xs, ys, l', hx, hy, hl, rfl⟩ := write_ok E h
  have ha : ∀ (as : List String) (i : Nat) a, as[i]? = some a → (J.list (as.map .str)).tells [.inr i] = some (.str a) := by
    intro as i a hi
    rw [tells_idx (x := .str a) (by rw [List.getElem?_map, hi]; rfl), tells_nil]
  refine ⟨fun as hk => ?_, fun vs hk => ?_⟩
  · simp only [Blk.written, hk, kindJ, Except.ok.injEq] at hl
    subst hl
    refine ⟨?_, ?_, ⟨_, ?_, toJ_tells ⟨.plot, ⟨"dessia_common.core", "DessiaObject"⟩, s⟩⟩, ?_⟩
    · rw [J.says, tells_key (by rfl), tells_nil]
    · rw [tells_key (by rfl), tells_nil]
    · rw [tells_key (by rfl), tells_nil]; rfl
    · intro i a hi
      rw [tells_key (by rfl)]
      exact ha as i a hi
  · simp only [Blk.written, hk, kindJ, Except.ok.injEq] at hl
    subst hl
    refine ⟨?_, ?_, ⟨_, ?_, toJ_tells ⟨.plot, ⟨"dessia_common.core", "DessiaObject"⟩, s⟩⟩, ?_⟩
    · rw [J.says, tells_key (by rfl), tells_nil]
    · rw [tells_key (by rfl), tells_nil]
    · rw [tells_key (by rfl), tells_nil]; rfl
    · intro i v hv
      refine ⟨v.toJ, ?_, ?_, ?_, ?_⟩
      · rw [tells_key (by rfl), tells_idx (x := v.toJ) (by rw [List.getElem?_map, hv]; rfl), tells_nil]
      · rw [J.says, View.toJ, tells_key (by rfl), tells_nil]
      · rw [J.says, View.toJ, tells_key (by rfl), tells_nil]
        refine congrArg (fun s => some (J.str s)) ?_
        cases v.scatter <;> decide
      · intro k a hk
        rw [View.toJ, tells_key (by rfl)]
        exact ha _ k a hk

example : ∃ d, write shop (made (.multiObject "plot" [⟨true, ["price"], "v"⟩] true)) = .ok d ∧
    d.tells [.inl "configurations", .inr 0, .inl "attributes", .inr 0] = some (.str "price") := ⟨_, rfl, by rfl⟩

/-- The dicts of the other blocks tell the arguments which the blocks were made with; that of an `Archive` tells the number of its inputs but
one. -/
theorem C195_arguments (b : Blk τ α ω) (d : J) (h : write E b = .ok d) :
    (∀ c, b.kind = .instantiate c → d.says "model_class" (c.module ++ "." ++ c.name)) ∧
    (∀ n, b.kind = .sequence n ∨ b.kind = .concatenate n → d.tells [.inl "number_arguments"] = some (.int n)) ∧
    (∀ l (i : Nat) (v : Int), b.kind = .unpacker l → l[i]? = some v → d.tells [.inl "indices", .inr i] = some (.int v)) ∧
    (∀ n, b.kind = .product n → d.tells [.inl "number_list"] = some (.int n)) ∧
    (∀ a, b.kind = .modelAttribute a → d.says "attribute_name" a) ∧
    (∀ n, b.kind = .sum n → d.tells [.inl "number_elements"] = some (.int n)) ∧
    (∀ n s, b.kind = .strings n s → d.tells [.inl "number_elements"] = some (.int n) ∧ d.says "separator" s) ∧
    (∀ m t e f, b.kind = .export m t e f → d.says "filename" f ∧ d.says "extension" e ∧ d.tells [.inl "text"] = some (.bool t)) ∧
    (∀ n f, b.kind = .archive n f → d.says "filename" f ∧ d.says "extension" "zip" ∧
      d.tells [.inl "number_exports"] = some (.int ((b.ins.length - 1 : Nat) : Int)) ∧ d.tells [.inl "text"] = some (.bool false)) ∧
    (∀ as l, b.kind = .oldMultiPlot as l → d.tells [.inl "load_by_default"] = some (.bool l) ∧ d.tells [.inl "selector"] = some .null ∧
      d.tells [.inl "serialize"] = some (.bool true) ∧
      ∀ (i : Nat) a, as[i]? = some a → d.tells [.inl "attributes", .inr i] = some (.str a)) ∧
    (∀ t s l, b.kind = .oldDisplay t s l → d.tells [.inl "load_by_default"] = some (.bool l) ∧ d.says "selector" s) ∧
    (∀ W, b.kind = .workflow W → ∃ j, E.wfWrite W = .ok j ∧ d.tells [.inl "workflow"] = some j) ∧
    (∀ c i, b.kind = .forEach c i → d.tells [.inl "iter_input_index"] = some (.int i) ∧
      d.tells [.inl "workflow_block", .inl "object_class"] = some (.str "dessia_common.workflow.blocks.WorkflowBlock") ∧
      d.tells [.inl "workflow_block", .inl "name"] = some (.str c.name) ∧
      ∃ j, E.wfWrite c.flow = .ok j ∧ d.tells [.inl "workflow_block", .inl "workflow"] = some j) := by
  obtain ⟨xs, ys, l', hx, hy, hl, rfl⟩ := write_ok E h
  refine ⟨?_, ?_, ?_, ?_, ?_, ?_, ?_, ?_, ?_, ?_, ?_, ?_, ?_⟩
  · intro c hk
    simp only [Blk.written, hk, kindJ, Except.ok.injEq] at hl
    subst hl
    rw [J.says, tells_key (by rfl), tells_nil]; rfl
  · rintro n (hk | hk) <;> simp only [Blk.written, hk, kindJ, Except.ok.injEq] at hl <;> subst hl <;>
      rw [tells_key (by rfl), tells_nil]
  · intro l i v hk hi
    simp only [Blk.written, hk, kindJ, Except.ok.injEq] at hl
    subst hl
    rw [tells_key (by rfl), tells_idx (x := .int v) (by rw [List.getElem?_map, hi]; rfl), tells_nil]
  · intro n hk
    simp only [Blk.written, hk, kindJ, Except.ok.injEq] at hl
    subst hl
    rw [tells_key (by rfl), tells_nil]
  · intro a hk
    simp only [Blk.written, hk, kindJ, Except.ok.injEq] at hl
    subst hl
    rw [J.says, tells_key (by rfl), tells_nil]
  · intro n hk
    simp only [Blk.written, hk, kindJ, Except.ok.injEq] at hl
    subst hl
    rw [tells_key (by rfl), tells_nil]
  · intro n s hk
    simp only [Blk.written, hk, kindJ, Except.ok.injEq] at hl
    subst hl
    exact ⟨by rw [tells_key (by rfl), tells_nil], by rw [J.says, tells_key (by rfl), tells_nil]⟩
  · intro m t e f hk
    simp only [Blk.written, hk, kindJ, Except.ok.injEq] at hl
    subst hl
    exact ⟨by rw [J.says, tells_key (by rfl), tells_nil], by rw [J.says, tells_key (by rfl), tells_nil],
      by rw [tells_key (by rfl), tells_nil]⟩
  · intro n f hk
    simp only [Blk.written, hk, kindJ, Except.ok.injEq] at hl
    subst hl
    exact ⟨by rw [J.says, tells_key (by rfl), tells_nil], by rw [J.says, tells_key (by rfl), tells_nil],
      by rw [tells_key (by rfl), tells_nil], by rw [tells_key (by rfl), tells_nil]⟩
  · intro as l hk
    simp only [Blk.written, hk, kindJ, Except.ok.injEq] at hl
    subst hl
    refine ⟨by rw [tells_key (by rfl), tells_nil], by rw [tells_key (by rfl), tells_nil], by rw [tells_key (by rfl), tells_nil], ?_⟩
    intro i a hi
    rw [tells_key (by rfl), tells_idx (x := .str a) (by rw [List.getElem?_map, hi]; rfl), tells_nil]
  · intro t s l hk
    simp only [Blk.written, hk, kindJ, Except.ok.injEq] at hl
    subst hl
    exact ⟨by rw [tells_key (by rfl), tells_nil], by rw [J.says, tells_key (by rfl), tells_nil]⟩
  · intro W hk
    simp only [Blk.written, hk, kindJ, bind, Except.bind] at hl
    cases hw : E.wfWrite W with
    | error e => simp [hw] at hl
    | ok j =>
      simp only [hw, Except.ok.injEq] at hl
      subst hl
      exact ⟨j, rfl, by rw [tells_key (by rfl), tells_nil]⟩
  · intro c i hk
    simp only [Blk.written, hk, kindJ, baseJ, bind, Except.bind] at hl
    cases hci : c.ins.mapM (varJ E) with
    | error e => simp [hci] at hl
    | ok xs' =>
      cases hco : c.outs.mapM (varJ E) with
      | error e => simp [hci, hco] at hl
      | ok ys' =>
        cases hw : E.wfWrite c.flow with
        | error e => simp [hci, hco, hw] at hl
        | ok j =>
          simp only [hci, hco, hw, Except.ok.injEq] at hl
          subst hl
          refine ⟨by rw [tells_key (by rfl), tells_nil], ?_, ?_, j, rfl, ?_⟩
          · rw [tells_key (by rfl), tells_key (by rfl), tells_nil]
            exact congrArg (fun s => some (J.str s)) (by decide)
          · rw [tells_key (by rfl), tells_key (by rfl), tells_nil]
          · rw [tells_key (by rfl), tells_key (by rfl), tells_nil]

example : ∃ d, write shop (made (.archive 2 "all")) = .ok d ∧ d.tells [.inl "number_exports"] = some (.int 2) := ⟨_, rfl, by rfl⟩
example : ∃ d, write shop (made (.unpacker [2, -1])) = .ok d ∧ d.tells [.inl "indices", .inr 1] = some (.int (-1)) := ⟨_, rfl, by rfl⟩

end DC.Cat
