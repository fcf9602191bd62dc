import Verif.Workflow.Catalogue
/-
C120: a block written as a dict and read again.
-/
set_option linter.unusedSectionVars false
set_option linter.unusedSimpArgs false
namespace DC.Cat
open DC.Wkf

variable {τ α ω : Type} (E : Setting τ α ω)

/-! ### Specification -/

/-- `y` is the variable `x` of a constructor after its label, its default value and its lock have been set.  Used in proofs only (no code). -/
structure Set (x y : Var τ α) : Prop where
  name : y.name = x.name
  type : y.type = x.type
  position : y.position = x.position
  locked : y.lockFlag = true → y.default.isSome = true
  kept : x.lockFlag = true → y.lockFlag = true

/-- `b` comes from the constructor of its class, and its variables may have been set since.  Used in proofs only (no code). -/
def FromClass (b : Blk τ α ω) : Prop :=
  ∃ c, construct E b.kind b.name b.position = .ok c ∧ c.kind = b.kind ∧ c.name = b.name ∧
    List.Forall₂ Set c.ins b.ins ∧ List.Forall₂ Set c.outs b.outs

/-- The default values are read as they are written.  Used in proofs only (no code). -/
def Faithful (xs : List (Var τ α)) : Prop := ∀ x ∈ xs, ∀ v, x.default = some v → E.des (E.ser v) = v

/-- A class is found under its name.  Used in proofs only (no code). -/
def Importable (c : Cls) : Prop := E.load c.full = .ok c

/-- A workflow is read as it is written.  Used in proofs only (no code). -/
def FlowFaithful (W : ω) : Prop := ∃ d, E.wfWrite W = .ok d ∧ E.wfRead d = .ok W

/-- What reading takes from the arguments of a block: classes which can be imported, references of the class that the block asks for, and
strings which name nothing importable where the generic reader is used.  Used in proofs only (no code). -/
def Sound : Kind τ α ω → Prop
  | .instantiate c => Importable E c
  | .classMethod m => Importable E m.cls ∧ m.kind = .classMethod
  | .modelMethod m => Importable E m.cls ∧ m.kind = .method
  | .workflow W => FlowFaithful E W
  | .forEach b _ => FlowFaithful E b.flow ∧ Faithful E b.ins ∧ Faithful E b.outs ∧
      ∃ xs ys, subPorts E b.flow b.name = .ok (xs, ys) ∧ List.Forall₂ Set xs b.ins ∧ List.Forall₂ Set ys b.outs
  | .filter fs _ => ∀ f ∈ fs, E.designates f.attr = false ∧ E.designates f.operator = false ∧ E.designates f.name = false
  | .oldMultiPlot as _ => ∀ a ∈ as, E.designates a = false
  | .multiObject _ vs _ => ∀ v ∈ vs, E.designates v.name = false ∧ ∀ a ∈ v.attributes, E.designates a = false
  | .oldDisplay _ s _ => E.designates s = false
  | .display t s _ => Importable E s.cls ∧ s.kind = t.refClass
  | .getAttribute r => Importable E r.cls ∧ r.kind = .attribute
  | .setAttribute r => Importable E r.cls ∧ r.kind = .attribute
  | .export m _ _ _ => Importable E m.cls
  | _ => True

/-- The arguments once read: the method of an `Export` is read as a class method.  Used in proofs only (no code). -/
def Kind.reread : Kind τ α ω → Kind τ α ω
  | .export m t e f => .export { m with kind := .classMethod } t e f
  | k => k

/-! ### Variables -/

theorem get_lookup (l : List (String × J)) (k : String) (v : J) (h : l.lookup k = some v) : J.get (.dict l) k = .ok v := by
  simp [J.get, h]

theorem configure_ok (x y : Var τ α) (h : Set x y) (hf : ∀ v, y.default = some v → E.des (E.ser v) = v) :
    ∃ d, varJ E y = .ok d ∧ configure E x d = .ok y := by
  obtain ⟨hn, ht, hp, hl, hk⟩ := h
  obtain ⟨n, t, l, p, d, f⟩ := x
  obtain ⟨n', t', l', p', d', f'⟩ := y
  simp only at hn ht hp hl hk hf
  subst hn ht hp
  cases d' with
  | none =>
    cases f' with
    | true => simp at hl
    | false =>
      have : f = false := by cases f with
        | false => rfl
        | true => simp at hk
      subst this
      refine ⟨_, rfl, ?_⟩
      simp [configure, J.get?, List.lookup, J.text, bind, Except.bind]
  | some v =>
    have hv := hf v rfl
    cases f' with
    | true =>
      refine ⟨_, rfl, ?_⟩
      simp [configure, J.get?, List.lookup, J.text, bind, Except.bind, Var.lock, hv]
    | false =>
      have : f = false := by cases f with
        | false => rfl
        | true => simp at hk
      subst this
      refine ⟨_, rfl, ?_⟩
      simp [configure, J.get?, List.lookup, J.text, bind, Except.bind, hv]

theorem configureAll_ok : ∀ (xs ys : List (Var τ α)), List.Forall₂ Set xs ys → Faithful E ys →
    ∃ ds, ys.mapM (varJ E) = .ok ds ∧ configureAll E xs ds = .ok ys := by
  intro xs ys h
  induction h with
  | nil => intro _; exact ⟨[], rfl, rfl⟩
  | @cons x y xs ys h _ ih =>
    intro hf
    obtain ⟨d, h1, h2⟩ := configure_ok E x y h (hf y (by simp))
    obtain ⟨ds, h3, h4⟩ := ih (fun z hz => hf z (by simp [hz]))
    refine ⟨d :: ds, ?_, ?_⟩
    · simp [List.mapM_cons, h1, h3, bind, Except.bind, pure, Except.pure]
    · simp [configureAll, h2, h4, bind, Except.bind]

/-! ### Entries -/

theorem mapM_ok {β γ ε : Type} (f : β → Except ε γ) (g : γ → β) : ∀ l : List γ, (∀ x ∈ l, f (g x) = .ok x) → (l.map g).mapM f = .ok l := by
  intro l
  induction l with
  | nil => intro _; rfl
  | cons x l ih =>
    intro h
    simp [List.mapM_cons, h x (by simp), ih (fun y hy => h y (by simp [hy])), bind, Except.bind, pure, Except.pure]

theorem mapM_id {β ε : Type} (f : β → Except ε β) (l : List β) (h : ∀ x ∈ l, f x = .ok x) : l.mapM f = .ok l := by
  have := mapM_ok f id l h
  simpa using this

theorem readRef_ok (c : RefClass) (r : Ref) (h : Importable E r.cls) : readRef E c r.toJ = .ok { r with kind := c } := by
  have h' : E.load r.cls.full = .ok r.cls := h
  simp [readRef, Ref.toJ, J.textAt, J.get, List.lookup, J.text, bind, Except.bind, h']

theorem plain_ok (s : String) (h : E.designates s = false) : plain E s = .ok s := by simp [plain, h]

theorem readFilt_ok (f : Filt) (h : E.designates f.attr = false ∧ E.designates f.operator = false ∧ E.designates f.name = false) :
    readFilt E f.toJ = .ok f := by
  simp [readFilt, Filt.toJ, J.plainAt, J.textAt, J.get, List.lookup, J.text, J.number, bind, Except.bind, plain, h]

theorem viewClass_ok (b : Bool) : viewClass (viewCls b).full = .ok b := by cases b <;> decide

theorem readView_ok (v : View) (h : E.designates v.name = false ∧ ∀ a ∈ v.attributes, E.designates a = false) :
    readView E v.toJ = .ok v := by
  have h1 : (v.attributes.map J.str).mapM J.text = .ok v.attributes := mapM_ok _ _ _ (fun _ _ => rfl)
  have h2 : v.attributes.mapM (plain E) = .ok v.attributes := mapM_id _ _ (fun a ha => plain_ok E a (h.2 a ha))
  simp [readView, View.toJ, J.plainAt, J.textAt, J.textsAt, J.items, J.get, List.lookup, J.text, bind, Except.bind, viewClass_ok, h1, h2,
    plain, h.1]

theorem ofName_ok (t : Tag) : Tag.ofName t.cls.full = .ok t := by cases t <;> decide

theorem subPorts_read (b : Inner τ α ω) (hW : FlowFaithful E b.flow) (hi : Faithful E b.ins) (ho : Faithful E b.outs)
    (hp : ∃ xs ys, subPorts E b.flow b.name = .ok (xs, ys) ∧ List.Forall₂ Set xs b.ins ∧ List.Forall₂ Set ys b.outs) :
    ∃ e d, baseJ E .workflow b.name b.position b.ins b.outs = .ok e ∧ E.wfWrite b.flow = .ok d ∧
      readInner E (.dict (e ++ [("workflow", d)])) = .ok b := by
  obtain ⟨d, hd, hr⟩ := hW
  obtain ⟨xs, ys, hs, hx, hy⟩ := hp
  obtain ⟨is, hi1, hi2⟩ := configureAll_ok E xs b.ins hx hi
  obtain ⟨os, ho1, ho2⟩ := configureAll_ok E ys b.outs hy ho
  refine ⟨_, d, by simp [baseJ, hi1, ho1, bind, Except.bind]; rfl, hd, ?_⟩
  simp [readInner, J.get, J.get?, J.textAt, J.posAt, J.text, J.pos, posJ, List.lookup, bind, Except.bind, hr, hs, configureAt, J.items, hi2, ho2]

/-- The entries of every block, then others.  Used in proofs only (no code). -/
abbrev withBase (o n i u p : J) (d : List (String × J)) : J :=
  .dict ([("object_class", o), ("name", n), ("inputs", i), ("outputs", u), ("position", p)] ++ d)

theorem readKind_ok (o n i u p : J) (k : Kind τ α ω) (h : Sound E k) :
    ∃ d, kindJ E k = .ok d ∧ readKind E (withBase o n i u p d) k.tag = .ok k.reread := by
  cases k with
  | instantiate c =>
    have h' : E.load c.full = .ok c := h
    exact ⟨_, rfl, by simp [Kind.tag, readKind, withBase, J.textAt, J.get, List.lookup, J.text, bind, Except.bind, h', Kind.reread]⟩
  | classMethod m =>
    refine ⟨_, rfl, ?_⟩
    simp [Kind.tag, readKind, withBase, J.get, List.lookup, bind, Except.bind, readRef_ok E _ m h.1, Kind.reread, ← h.2]
  | modelMethod m =>
    refine ⟨_, rfl, ?_⟩
    simp [Kind.tag, readKind, withBase, J.get, List.lookup, bind, Except.bind, readRef_ok E _ m h.1, Kind.reread, ← h.2]
  | sequence m => exact ⟨_, rfl, by simp [Kind.tag, readKind, withBase, J.countAt, J.count, J.number, J.get, List.lookup, bind, Except.bind, Kind.reread]⟩
  | concatenate m => exact ⟨_, rfl, by simp [Kind.tag, readKind, withBase, J.countAt, J.count, J.number, J.get, List.lookup, bind, Except.bind, Kind.reread]⟩
  | workflow W =>
    obtain ⟨d, hd, hr⟩ := h
    exact ⟨_, by simp [kindJ, hd, bind, Except.bind]; rfl, by
      simp [Kind.tag, readKind, withBase, J.get, List.lookup, bind, Except.bind, hr, Kind.reread]⟩
  | forEach b j =>
    obtain ⟨e, d, h1, h2, h3⟩ := subPorts_read E b h.1 h.2.1 h.2.2.1 h.2.2.2
    exact ⟨_, by simp [kindJ, h1, h2, bind, Except.bind]; rfl, by
      simp [Kind.tag, readKind, withBase, J.get, J.number, List.lookup, bind, Except.bind, h3, Kind.reread]⟩
  | unpacker l =>
    have h1 : (l.map J.int).mapM J.number = .ok l := mapM_ok _ _ _ (fun _ _ => rfl)
    exact ⟨_, rfl, by simp [Kind.tag, readKind, withBase, J.get, J.items, List.lookup, bind, Except.bind, h1, Kind.reread]⟩
  | flatten => exact ⟨_, rfl, rfl⟩
  | product m => exact ⟨_, rfl, by simp [Kind.tag, readKind, withBase, J.countAt, J.count, J.number, J.get, List.lookup, bind, Except.bind, Kind.reread]⟩
  | filter fs op =>
    have h1 : (fs.map Filt.toJ).mapM (readFilt E) = .ok fs := mapM_ok _ _ _ (fun f hf => readFilt_ok E f (h f hf))
    exact ⟨_, rfl, by simp [Kind.tag, readKind, withBase, J.get, J.textAt, J.text, J.items, List.lookup, bind, Except.bind, h1, Kind.reread]⟩
  | oldMultiPlot as l =>
    have h1 : (as.map J.str).mapM J.text = .ok as := mapM_ok _ _ _ (fun _ _ => rfl)
    have h2 : as.mapM (plain E) = .ok as := mapM_id _ _ (fun a ha => plain_ok E a (h a ha))
    exact ⟨_, rfl, by
      simp [Kind.tag, readKind, withBase, J.get, J.textsAt, J.flagAt, J.flag, J.items, List.lookup, bind, Except.bind, h1, h2, Kind.reread]⟩
  | multiPlot s as l =>
    have h1 : (as.map J.str).mapM J.text = .ok as := mapM_ok _ _ _ (fun _ _ => rfl)
    exact ⟨_, rfl, by
      simp [Kind.tag, readKind, withBase, readSelector, J.get, J.get?, J.textsAt, J.flagAt, J.flag, J.items, List.lookup, bind, Except.bind, h1,
        Kind.reread]⟩
  | multiObject s vs l =>
    have h1 : (vs.map View.toJ).mapM (readView E) = .ok vs := mapM_ok _ _ _ (fun v hv => readView_ok E v (h v hv))
    exact ⟨_, rfl, by
      simp [Kind.tag, readKind, withBase, J.get, J.textAt, J.text, J.flagAt, J.flag, J.items, List.lookup, bind, Except.bind, h1, Kind.reread]⟩
  | oldDisplay t s l =>
    have h' : E.designates s = false := h
    refine ⟨_, rfl, ?_⟩
    cases t <;> simp [Kind.tag, Shown.oldTag, readKind, withBase, J.get, J.plainAt, J.textAt, J.text, J.flagAt, J.flag, List.lookup, bind,
      Except.bind, plain, h', Kind.reread]
  | display t s l =>
    have h1 := readRef_ok E t.refClass s h.1
    have h2 : ({ s with kind := t.refClass } : Ref) = s := by rw [← h.2]
    rw [h2] at h1
    refine ⟨_, rfl, ?_⟩
    have h3 : readShown E t (withBase o n i u p [("load_by_default", .bool l), ("selector", s.toJ)]) = .ok (.display t s l) := by
      simp only [Ref.toJ] at h1
      simp [readShown, withBase, J.get, J.get?, J.flagAt, J.flag, List.lookup, bind, Except.bind, Ref.toJ, h1]
    cases t <;> simpa [Kind.tag, Shown.tag, readKind, Kind.reread] using h3
  | modelAttribute a => exact ⟨_, rfl, by simp [Kind.tag, readKind, withBase, J.textAt, J.text, J.get, List.lookup, bind, Except.bind, Kind.reread]⟩
  | getAttribute r =>
    refine ⟨_, rfl, ?_⟩
    simp [Kind.tag, readKind, withBase, J.get, List.lookup, bind, Except.bind, readRef_ok E _ r h.1, Kind.reread, ← h.2]
  | setAttribute r =>
    refine ⟨_, rfl, ?_⟩
    simp [Kind.tag, readKind, withBase, J.get, List.lookup, bind, Except.bind, readRef_ok E _ r h.1, Kind.reread, ← h.2]
  | sum m => exact ⟨_, rfl, by simp [Kind.tag, readKind, withBase, J.countAt, J.count, J.number, J.get, List.lookup, bind, Except.bind, Kind.reread]⟩
  | substraction => exact ⟨_, rfl, rfl⟩
  | strings m s =>
    exact ⟨_, rfl, by
      simp [Kind.tag, readKind, withBase, J.countAt, J.count, J.number, J.textAt, J.text, J.get, List.lookup, bind, Except.bind, Kind.reread]⟩
  | «export» m t e f =>
    have h' := readRef_ok E .classMethod m h
    exact ⟨_, rfl, by
      simp [Kind.tag, readKind, withBase, J.flagAt, J.flag, J.textAt, J.text, J.get, List.lookup, bind, Except.bind, h', Kind.reread]⟩
  | archive m f =>
    exact ⟨_, rfl, by
      simp [Kind.tag, readKind, withBase, J.countAt, J.count, J.number, J.textAt, J.text, J.get, List.lookup, bind, Except.bind, Kind.reread]⟩

theorem construct_inv {k : Kind τ α ω} {n : String} {p : Int × Int} {c : Blk τ α ω} (h : construct E k n p = .ok c) :
    ports E n k.kept = .ok (c.ins, c.outs) ∧ c.kind = k.kept ∧ c.name = k.keptName n ∧ c.position = p := by
  unfold construct at h
  cases hp : ports E n k.kept with
  | error e => simp [hp, bind, Except.bind] at h
  | ok r =>
    simp [hp, bind, Except.bind] at h
    subst h
    simp

theorem construct_of {k : Kind τ α ω} {n : String} {p : Int × Int} {xs ys : List (Var τ α)} (h : ports E n k.kept = .ok (xs, ys)) :
    construct E k n p = .ok ⟨k.kept, k.keptName n, p, xs, ys⟩ := by
  simp [construct, h, bind, Except.bind]

theorem construct_reread {k : Kind τ α ω} {n : String} {p : Int × Int} {c : Blk τ α ω} (h : construct E k n p = .ok c) (hk : c.kind = k) :
    construct E k.reread n p = .ok { c with kind := k.reread } := by
  obtain ⟨h1, h2, h3, h4⟩ := construct_inv E h
  have hkk : k.kept = k := by rw [← h2, hk]
  have : ports E n k.reread.kept = .ok (c.ins, c.outs) ∧ k.reread.kept = k.reread ∧ k.reread.keptName n = k.keptName n := by
    cases k with
    | «export» m t e f =>
      simp only [Kind.kept, Kind.export.injEq, true_and] at hkk
      simp only [Kind.kept, Kind.reread, hkk, and_true]
      simp only [Kind.kept, hkk] at h1
      exact ⟨h1, trivial, rfl⟩
    | _ => exact ⟨h1, hkk, rfl⟩
  rw [construct_of E this.1, this.2.1, this.2.2, ← h3, ← h4]

theorem archive_length {b : Blk τ α ω} (h : FromClass E b) : b.written = b.kind := by
  obtain ⟨c, h1, h2, -, h4, -⟩ := h
  obtain ⟨h5, -, -, -⟩ := construct_inv E h1
  cases hk : b.kind with
  | archive n f =>
    rw [hk] at h5
    simp only [Kind.kept, ports, Except.ok.injEq, Prod.mk.injEq] at h5
    have := h4.length_eq
    rw [← h5.1] at this
    simp [numbered] at this
    simp [Blk.written, hk, ← this]
  | _ => simp [Blk.written, hk]

theorem reread_bare (k : Kind τ α ω) : k.reread.bare = k.bare := by cases k <;> rfl

/-- A block which is written and read is the same, but for the method of an `Export`. -/
theorem read_write (b : Blk τ α ω) (h : FromClass E b) (hi : Faithful E b.ins) (ho : Faithful E b.outs) (hs : Sound E b.kind)
    (hb : b.kind.bare = true → construct E b.kind b.name b.position = .ok b ∧ E.designates b.name = false) :
    ∃ d, write E b = .ok d ∧ read E d = .ok { b with kind := b.kind.reread } := by
  have ha := archive_length E h
  obtain ⟨c, h1, h2, h3, h4, h5⟩ := h
  have h6 := construct_reread E h1 h2
  obtain ⟨is, hi1, hi2⟩ := configureAll_ok E c.ins b.ins h4 hi
  obtain ⟨os, ho1, ho2⟩ := configureAll_ok E c.outs b.outs h5 ho
  obtain ⟨d, hd, hr⟩ := readKind_ok E (.str b.kind.tag.cls.full) (.str b.name) (.list is) (.list os) (posJ b.position) b.kind hs
  refine ⟨_, by simp only [write, baseJ, hi1, ho1, ha, hd, bind, Except.bind]; rfl, ?_⟩
  have hn : readName E (withBase (.str b.kind.tag.cls.full) (.str b.name) (.list is) (.list os) (posJ b.position) d) b.kind.tag = .ok b.name := by
    have hpl : b.kind.bare = true → J.plainAt E (withBase (.str b.kind.tag.cls.full) (.str b.name) (.list is) (.list os) (posJ b.position) d)
        "name" = .ok b.name := by
      intro hbb
      simp [J.plainAt, withBase, J.textAt, J.get, List.lookup, J.text, bind, Except.bind, plain, (hb hbb).2]
    have htx : J.textAt (withBase (.str b.kind.tag.cls.full) (.str b.name) (.list is) (.list os) (posJ b.position) d)
        "name" = .ok b.name := by
      simp [withBase, J.textAt, J.get, List.lookup, J.text, bind, Except.bind]
    generalize withBase _ _ _ _ _ d = D at hpl htx
    cases hk : b.kind <;> simp only [Kind.tag, readName] <;> first
      | exact htx
      | exact hpl (by rw [hk]; rfl)
      | (rename_i t _ _; cases t <;> simp only [Shown.tag, Shown.oldTag, readName] <;> first
          | exact htx
          | exact hpl (by rw [hk]; rfl))
  have hp : J.posAt (withBase (.str b.kind.tag.cls.full) (.str b.name) (.list is) (.list os) (posJ b.position) d) "position" =
      .ok b.position := by
    simp [withBase, J.posAt, J.get, List.lookup, J.pos, posJ, bind, Except.bind]
  have hc : J.textAt (withBase (.str b.kind.tag.cls.full) (.str b.name) (.list is) (.list os) (posJ b.position) d) "object_class" =
      .ok b.kind.tag.cls.full := by
    simp [withBase, J.textAt, J.get, List.lookup, J.text, bind, Except.bind]
  have hin : configureAt E (withBase (.str b.kind.tag.cls.full) (.str b.name) (.list is) (.list os) (posJ b.position) d) "inputs" c.ins =
      .ok b.ins := by
    simp [withBase, configureAt, J.get?, List.lookup, J.items, bind, Except.bind, hi2]
  have hout : configureAt E (withBase (.str b.kind.tag.cls.full) (.str b.name) (.list is) (.list os) (posJ b.position) d) "outputs" c.outs =
      .ok b.outs := by
    simp [withBase, configureAt, J.get?, List.lookup, J.items, bind, Except.bind, ho2]
  simp only [withBase] at hr hn hp hc hin hout
  simp only [read, hc, ofName_ok, hr, hn, hp, h6, bind, Except.bind, reread_bare]
  by_cases hbb : b.kind.bare = true
  · have := (hb hbb).1
    rw [h1] at this
    cases this
    simp [hbb]
  · simp only [hbb, hin, hout]
    simp only [Bool.false_eq_true, if_false]
    rw [h3, (construct_inv E h1).2.2.2]

end DC.Cat
