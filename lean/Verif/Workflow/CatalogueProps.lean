import Verif.Workflow.CatalogueSame
import Verif.Workflow.CatalogueScript
/-
C120-C123: blocks are read as they were written; equivalent blocks compute the same; the declaration of a block in a script builds it; a
copied block computes the same.
-/
set_option linter.unusedSectionVars false
namespace DC.Cat
open DC.Wkf

variable {τ α ω : Type} (E : Setting τ α ω)

/-! ### A small library -/

/-- Types. -/
inductive DTy where
  | none | str | list | objects | object | display | int | cls (c : Cls)
  deriving DecidableEq

/-- Three classes, two of which have the same name. -/
def car : Cls := ⟨"shop.cars", "Car"⟩
def bike : Cls := ⟨"shop.bikes", "Bike"⟩
def toy : Cls := ⟨"shop.toys", "Car"⟩

/-- A library with these classes, in which values are texts and workflows are numbers. -/
def shop : Setting DTy String Nat where
  load s := match [car, bike, toy].find? fun c => c.full == s with
    | some c => .ok c
    | none => .error .importError
  metaName _ := "type"
  initIns _ := .ok [⟨"wheels", .int, "", (0, 0), none⟩]
  method _ _ := .ok ([⟨"speed", .int, "", (0, 0), none⟩], .str)
  attrType _ _ := .ok .int
  ofClass := .cls
  noType := .none
  strT := .str
  listT := .list
  objectsT := .objects
  objectT := .object
  displayT := .display
  serT _ := ""
  prettyT _ := ""
  ser := .str
  des j := match j with
    | .str s => s
    | _ => ""
  text s := s
  designates s := s == "shop.cars.Car"
  wfIns _ := [⟨"x", .int, "", (0, 0), none, false⟩]
  wfOut _ := some ⟨"y", .int, "", (0, 0), none, false⟩
  wfWrite n := .ok (.int n)
  wfRead j := match j with
    | .int i => .ok i.toNat
    | _ => .error .typeError
  wfCopy n := .ok n
  wfEq n m := .ok (n == m)
  wfHash n := .ok n
  hashS s := s.length
  hashN i := i
  hashV v := v.attributes.length
  lit _ s := .ok s

/-- What the blocks of this library call. -/
def garage : Host String Nat where
  new c _ := .ok c.full
  classCall c n _ := .ok (c.full ++ n)
  call v n _ := .ok (v ++ n)
  zero := "0"
  pack _ := "list"
  concat _ := .ok "list"
  item v _ := .ok v
  flatten v := .ok v
  product _ := .ok "list"
  runFlow n _ := .ok (toString n)
  runEach n _ _ := .ok (toString n)
  select _ o _ := .ok o
  multiplot as _ := .ok (toString as.length)
  multiview vs _ := .ok ((vs.map View.name).headD "")
  «show» _ s := .ok s
  attr v _ := .ok v
  setAttr v _ _ := .ok v
  sub v _ := .ok v
  join s _ := .ok s
  stream v m f e t := .ok (v ++ m ++ f ++ e ++ (if t then "text" else "bytes"))
  zip _ f := .ok f

/-- A block as its constructor makes it. -/
def made (k : Kind DTy String Nat) (n : String := "b") (p : Int × Int := (0, 0)) : Blk DTy String Nat :=
  match construct shop k n p with
  | .ok b => b
  | .error _ => ⟨k, "", p, [], []⟩

/-- A variable which has been labelled, given a value and locked. -/
def fixed (x : Var DTy String) : Var DTy String := { x with label := "label", default := some "four", lockFlag := true }

/-- A block whose first input has been labelled, given a value and locked. -/
def locked (b : Blk DTy String Nat) : Blk DTy String Nat :=
  { b with ins := match b.ins with
    | [] => []
    | x :: xs => fixed x :: xs }

theorem set_refl (x : Var DTy String) (h : x.lockFlag = false) : Set x x := ⟨rfl, rfl, rfl, by simp [h], id⟩
theorem set_fixed (x : Var DTy String) : Set x (fixed x) := ⟨rfl, rfl, rfl, fun _ => rfl, fun _ => rfl⟩

theorem forall₂_refl : ∀ (xs : List (Var DTy String)), (∀ x ∈ xs, x.lockFlag = false) → List.Forall₂ Set xs xs := by
  intro xs
  induction xs with
  | nil => intro _; exact .nil
  | cons x xs ih => intro h; exact .cons (set_refl x (h x (by simp))) (ih (fun y hy => h y (by simp [hy])))

theorem faithful_shop (xs : List (Var DTy String)) : Faithful shop xs := fun _ _ _ _ => rfl

theorem fromClass_made {k : Kind DTy String Nat} {n : String} {p : Int × Int} (h : construct shop k n p = .ok (made k n p))
    (hk : (made k n p).kind = k) (hn : (made k n p).name = n) (hp : (made k n p).position = p)
    (hi : ∀ x ∈ (made k n p).ins, x.lockFlag = false) (ho : ∀ x ∈ (made k n p).outs, x.lockFlag = false) : FromClass shop (made k n p) := by
  refine ⟨made k n p, ?_, rfl, rfl, forall₂_refl _ hi, forall₂_refl _ ho⟩
  rw [hk, hn, hp]
  exact h

/-! ### C120 -/

/-- C120, partial: a block built by its class, whose variables may have been labelled, given default values and locked, is read as it was
written: same class, same arguments, same name, same position, same variables with their labels, default values and locks.
Full statement: every block which can be written is read as it was.  Missing: the method of an `Export` comes back as a class method, and the
variables of the deprecated displays come back as new ones (see the theorems which follow); classes must be importable, default values
must be read as they are written, and where the generic reader is used the texts must not be import paths. -/
theorem C120_read_write_partial (b : Blk τ α ω) (h : FromClass E b) (hi : Faithful E b.ins) (ho : Faithful E b.outs)
    (hs : Sound E b.kind) (hx : ∀ m t e f, b.kind = .export m t e f → m.kind = .classMethod)
    (hb : b.kind.bare = true → construct E b.kind b.name b.position = .ok b ∧ E.designates b.name = false) :
    ∃ d, write E b = .ok d ∧ read E d = .ok b := by
  obtain ⟨d, h1, h2⟩ := read_write E b h hi ho hs hb
  refine ⟨d, h1, ?_⟩
  rw [h2]
  have : b.kind.reread = b.kind := by
    cases hk : b.kind with
    | «export» m t e f => simp only [Kind.reread, ← hx m t e f hk]
    | _ => rfl
  rw [this]

example : ∃ d, write shop (locked (made (.modelMethod ⟨.method, car, "drive"⟩) "" (3, 4))) = .ok d ∧
    read shop d = .ok (locked (made (.modelMethod ⟨.method, car, "drive"⟩) "" (3, 4))) :=
  C120_read_write_partial shop _
    ⟨made (.modelMethod ⟨.method, car, "drive"⟩) "" (3, 4), rfl, rfl, rfl,
      .cons (set_fixed _) (.cons (set_refl _ rfl) .nil), .cons (set_refl _ rfl) (.cons (set_refl _ rfl) .nil)⟩
    (faithful_shop _) (faithful_shop _) ⟨rfl, rfl⟩ (by intro m t e f h; cases h) (by intro h; cases h)

example : ∃ d, write shop (made (.filter [⟨"price", "gt", 3, "f"⟩] "or")) = .ok d ∧
    read shop d = .ok (made (.filter [⟨"price", "gt", 3, "f"⟩] "or")) :=
  C120_read_write_partial shop _ (fromClass_made rfl rfl rfl rfl (by decide) (by decide))
    (faithful_shop _) (faithful_shop _) (by intro f hf; simp only [List.mem_singleton] at hf; subst hf; decide)
    (by intro m t e f h; cases h) (by intro h; cases h)

/-- C120, violated: an `Export` is read with a class method in the place of its method. -/
theorem C120_export_violated : ∃ b : Blk DTy String Nat, FromClass shop b ∧ Sound shop b.kind ∧
    ∃ d c, write shop b = .ok d ∧ read shop d = .ok c ∧ c.kind ≠ b.kind := by
  refine ⟨made (.export ⟨.method, car, "drive"⟩ true "txt" "file"), fromClass_made rfl rfl rfl rfl (by decide) (by decide), rfl, ?_⟩
  obtain ⟨d, h1, h2⟩ := read_write shop (made (.export ⟨.method, car, "drive"⟩ true "txt" "file"))
    (fromClass_made rfl rfl rfl rfl (by decide) (by decide)) (faithful_shop _) (faithful_shop _) rfl (by intro h; cases h)
  refine ⟨d, _, h1, h2, ?_⟩
  intro h
  simp [Kind.reread, made, construct, ports, shop, Kind.kept, bind, Except.bind] at h

/-- C120, violated: the label, the default value and the lock of the input of a deprecated display are lost. -/
theorem C120_display_violated : ∃ b : Blk DTy String Nat, FromClass shop b ∧ Sound shop b.kind ∧
    ∃ d c, write shop b = .ok d ∧ read shop d = .ok c ∧
      b.ins.map (fun x => (x.label, x.default, x.lockFlag)) = [("label", some "four", true)] ∧
      c.ins.map (fun x => (x.label, x.default, x.lockFlag)) = [("", none, false)] := by
  refine ⟨locked (made (.oldDisplay .cad "cad" false)), ⟨made (.oldDisplay .cad "cad" false), rfl, rfl, rfl, .cons (set_fixed _) .nil,
    .cons (set_refl _ rfl) .nil⟩, rfl, _, _, rfl, rfl, rfl, rfl⟩

/-! ### C121 -/

/-- C121, partial: two blocks which are found equivalent, and agree on what `Told` lists, give the same outputs for the same inputs.
Full statement: two equivalent blocks give the same outputs.  Missing: the comparison does not look at the class of an `InstantiateModel`, at the
module of the class of a `ClassMethod`, at the logical operator of a `Filter`, at the names of the views of a `MultiObject`, at the selector of
a display, at the method, the extension and the kind of an `Export` (see the theorems which follow). -/
theorem C121_equivalent_partial [DecidableEq τ] (H : Host α ω) (hH : FlowsSame E H) (hinj : Function.Injective E.ofClass) (b c : Blk τ α ω)
    (hb : FromClass E b) (hc : FromClass E c) (h : equivalent E b c = .ok true) (ht : Told b.kind c.kind) (vs : List α) :
    evaluate H b vs = evaluate H c vs :=
  equivalent_evaluate E H hH hinj b c hb hc h ht vs

theorem shop_inj : Function.Injective shop.ofClass := by
  intro a b h
  have h' : DTy.cls a = DTy.cls b := h
  cases h'
  rfl

theorem shop_flows : FlowsSame shop garage := by
  intro W W' h
  simp only [shop, Except.ok.injEq, beq_iff_eq] at h
  rw [h]
  exact ⟨rfl, rfl⟩

example : evaluate garage (made (.modelMethod ⟨.method, car, "drive"⟩) "one") ["c", "3"] =
    evaluate garage (made (.modelMethod ⟨.classMethod, car, "drive"⟩) "two" (5, 6)) ["c", "3"] :=
  C121_equivalent_partial shop garage shop_flows shop_inj _ _
    (fromClass_made (k := .modelMethod ⟨.method, car, "drive"⟩) rfl rfl rfl rfl (by decide) (by decide))
    (fromClass_made (k := .modelMethod ⟨.classMethod, car, "drive"⟩) rfl rfl rfl rfl (by decide) (by decide)) (by decide) trivial _

/-- Two blocks as their constructors make them, which are found equivalent and give different outputs. -/
def Confused (k k' : Kind DTy String Nat) (vs : List String) : Prop :=
  construct shop k "b" (0, 0) = .ok (made k) ∧ construct shop k' "b" (0, 0) = .ok (made k') ∧
  equivalent shop (made k) (made k') = .ok true ∧ evaluate garage (made k) vs ≠ evaluate garage (made k') vs

/-- C121, violated: blocks which instantiate two classes with the same arguments are found equivalent. -/
theorem C121_class_violated : Confused (.instantiate car) (.instantiate bike) ["4"] := ⟨rfl, rfl, by decide, by decide⟩

/-- C121, violated: blocks which call a class method of two classes of the same name, in two modules, are found equivalent. -/
theorem C121_module_violated : Confused (.classMethod ⟨.classMethod, car, "build"⟩) (.classMethod ⟨.classMethod, toy, "build"⟩) ["4"] :=
  ⟨rfl, rfl, by decide, by decide⟩

/-- C121, violated: filters which join their conditions with `and` and with `or` are found equivalent. -/
theorem C121_filter_violated : Confused (.filter [⟨"price", "gt", 3, ""⟩] "and") (.filter [⟨"price", "gt", 3, ""⟩] "or") ["l"] :=
  ⟨rfl, rfl, by decide, by decide⟩

/-- C121, violated: exports by two methods, in a text and in a binary file, with two extensions, are found equivalent. -/
theorem C121_export_violated : Confused (.export ⟨.method, car, "save"⟩ true "txt" "f") (.export ⟨.method, car, "dump"⟩ false "bin" "f")
    ["c", "f"] := ⟨rfl, rfl, by decide, by decide⟩

/-- C121, violated: displays by two selectors are found equivalent. -/
theorem C121_selector_violated : Confused (.display .cad ⟨.cad, car, "front"⟩ false) (.display .cad ⟨.cad, car, "back"⟩ false) ["c"] :=
  ⟨rfl, rfl, by decide, by decide⟩

/-- C121, violated: views with two names are found equivalent. -/
theorem C121_view_violated : Confused (.multiObject "s" [⟨true, ["x", "y"], "one"⟩] true) (.multiObject "s" [⟨true, ["x", "y"], "two"⟩] true)
    ["l"] := ⟨rfl, rfl, by decide, by decide⟩

/-- C121, partial: two blocks which are found equivalent have the same hash.
Full statement: so do all equivalent blocks.  Missing: blocks which instantiate two classes whose names have not the same length are found
equivalent and have not the same hash (see the next theorem). -/
theorem C121_hash_partial [DecidableEq τ] (hE : HashesSame E) (b c : Blk τ α ω) (hb : FromClass E b) (hc : FromClass E c)
    (h : equivalent E b c = .ok true) (hm : ∀ m m', b.kind = .instantiate m → c.kind = .instantiate m' → m.name.length = m'.name.length) :
    equivalentHash E b = equivalentHash E c :=
  equivalent_hash E hE b c hb hc h hm

theorem shop_hashes : HashesSame shop := by
  refine ⟨?_, ?_⟩
  · intro W W' h
    simp only [shop, Except.ok.injEq, beq_iff_eq] at h
    rw [h]
  · intro v v' h
    simp only [View.eq, Bool.and_eq_true, beq_iff_eq] at h
    simp only [shop, h.2]

example : equivalentHash shop (locked (made (.archive 2 "a"))) = equivalentHash shop (locked (made (.archive 2 "b") "other")) :=
  C121_hash_partial shop shop_hashes _ _
    ⟨made (.archive 2 "a"), rfl, rfl, rfl, .cons (set_fixed _) (.cons (set_refl _ rfl) (.cons (set_refl _ rfl) .nil)), .cons (set_refl _ rfl) .nil⟩
    ⟨made (.archive 2 "b") "other", rfl, rfl, rfl, .cons (set_fixed _) (.cons (set_refl _ rfl) (.cons (set_refl _ rfl) .nil)),
      .cons (set_refl _ rfl) .nil⟩ (by decide) (by intro m m' h; cases h)

/-- C121, violated: two blocks which are found equivalent have different hashes. -/
theorem C121_hash_violated : construct shop (.instantiate car) "b" (0, 0) = .ok (made (.instantiate car)) ∧
    construct shop (.instantiate bike) "b" (0, 0) = .ok (made (.instantiate bike)) ∧
    equivalent shop (made (.instantiate car)) (made (.instantiate bike)) = .ok true ∧
    equivalentHash shop (made (.instantiate car)) ≠ equivalentHash shop (made (.instantiate bike)) := ⟨rfl, rfl, by decide, by decide⟩

/-! ### C122 -/

/-- C122, partial: the declaration of a block in a script, run after imports which hold those of the block and no two classes of the same name,
calls the constructor of the block with its arguments, its name and its position; so that it builds the block itself when its variables have
not been set.
Full statement: every declaration which is written builds its block.  Missing: what `Writable` excludes (see the theorems which follow); the
blocks which hold workflows are in Workflow/ScriptProps.lean. -/
theorem C122_script_partial (b : Blk τ α ω) (hb : FromClass E b) (hn : Plain E true b.name) (hw : Writable E b) :
    ∃ d l, toScript b = .ok (d, l) ∧ ∀ imports, (∀ c ∈ l, c ∈ imports) → Unambiguous imports →
      run E imports d = construct E b.kind b.name b.position ∧
      (construct E b.kind b.name b.position = .ok b → run E imports d = .ok b) := by
  obtain ⟨d, l, h1, h2⟩ := run_toScript E b hb hn hw
  exact ⟨d, l, h1, fun imports hi hu => ⟨h2 imports hi hu, fun hc => by rw [h2 imports hi hu, hc]⟩⟩

example : ∃ d l, toScript (made (.display .plot ⟨.plot, car, "curve"⟩ true) "p" (1, 2)) = .ok (d, l) ∧
    run shop (car :: l) d = .ok (made (.display .plot ⟨.plot, car, "curve"⟩ true) "p" (1, 2)) := by
  obtain ⟨d, l, h1, h2⟩ := C122_script_partial shop (made (.display .plot ⟨.plot, car, "curve"⟩ true) "p" (1, 2))
    (fromClass_made rfl rfl rfl rfl (by decide) (by decide)) rfl rfl
  refine ⟨d, l, h1, (h2 (car :: l) (fun c hc => List.mem_cons_of_mem _ hc) ?_).2 rfl⟩
  have : l = [Tag.plot.cls, car, RefClass.plot.cls] := by
    have : toScript (made (.display .plot ⟨.plot, car, "curve"⟩ true) "p" (1, 2)) = .ok (_, [Tag.plot.cls, car, RefClass.plot.cls]) := rfl
    rw [h1] at this
    cases this
    rfl
  subst this
  unfold Unambiguous
  decide

/-- The declaration which a block writes, run after its own imports. -/
def again (b : Blk DTy String Nat) : Except PyErr (Blk DTy String Nat) := do
  let (d, l) ← toScript b
  run shop l d

/-- C122, violated: the list of the filters of a `Filter` is not closed. -/
theorem C122_filter_violated (fs : List Filt) (op n : String) (p : Int × Int) : again (made (.filter fs op) n p) = .error .syntaxError := rfl

/-- C122, violated: the script of a `SetModelAttribute` does not import what it names. -/
theorem C122_attribute_violated : again (made (.setAttribute ⟨.attribute, car, "price"⟩)) = .error .nameError := rfl

/-- C122, violated: the position of a `ConcatenateStrings` is not written. -/
theorem C122_position_violated : ∃ c, again (made (.strings 2 "-") "b" (3, 4)) = .ok c ∧ c.position = (0, 0) := ⟨_, rfl, rfl⟩

/-- C122, violated: the script of a `DeprecatedMultiPlot` names another class than the one it imports. -/
theorem C122_multiplot_violated : again (made (.oldMultiPlot ["x", "y"] true)) = .error .nameError := rfl

/-- C122, violated: the selector of a deprecated display, which is a text, has no class to write. -/
theorem C122_display_violated (t : Shown) (s : String) (l : Bool) : again (made (.oldDisplay t s l)) = .error .attributeError := rfl

/-- C122, violated: a scatter view of one attribute is rebuilt with the letters of its name. -/
theorem C122_scatter_violated : ∃ c, again (made (.multiObject "s" [⟨true, ["price"], ""⟩] true)) = .ok c ∧
    c.kind = .multiObject "s" [⟨true, ["p", "r", "i", "c", "e"], ""⟩] true := ⟨_, rfl, rfl⟩

/-- C122, violated: a parallel view without attribute is rebuilt with one attribute whose name is empty. -/
theorem C122_parallel_violated : ∃ c, again (made (.multiObject "s" [⟨false, [], ""⟩] true)) = .ok c ∧
    c.kind = .multiObject "s" [⟨false, [""], ""⟩] true := ⟨_, rfl, rfl⟩

/-- C122, violated: an `Export` which was read from its dict writes a script which does not import what it names. -/
theorem C122_export_violated : ∃ d c, write shop (made (.export ⟨.method, car, "save"⟩ true "txt" "f")) = .ok d ∧ read shop d = .ok c ∧
    again c = .error .nameError := ⟨_, _, rfl, rfl, rfl⟩

/-- C122, violated: a `ClassMethod` which was copied writes a script which does not import what it names. -/
theorem C122_copy_violated : ∃ c, copy shop (made (.classMethod ⟨.classMethod, car, "build"⟩)) = .ok c ∧ again c = .error .nameError :=
  ⟨_, rfl, rfl⟩

/-- C122, violated: a class of the user with the name of a class of blocks is called in the place of this one. -/
theorem C122_name_violated : ∃ d l, toScript (made (.flatten)) = .ok (d, l) ∧ run shop (l ++ [⟨"shop", "Flatten"⟩]) d = .error .typeError :=
  ⟨_, _, rfl, rfl⟩

/-! ### C123 -/

/-- C123: the copy of a block is of the same class, has the same name and position and the variables which the constructor makes, and gives the
same outputs for the same inputs. -/
theorem C123_copy_evaluates [DecidableEq τ] (H : Host α ω) (b : Blk τ α ω) (hb : FromClass E b) (hf : FlowCopied E H b.kind) :
    ∃ c d, copy E b = .ok c ∧ construct E b.kind b.name b.position = .ok d ∧ c.name = b.name ∧ c.position = b.position ∧
      c.kind.tag = b.kind.tag ∧ c.ins = d.ins ∧ c.outs = d.outs ∧ ∀ vs, evaluate H c vs = evaluate H b vs :=
  copy_evaluate E H b hb hf

example : ∃ c, copy shop (made (.forEach ⟨7, "w", (0, 0), [⟨"w - x", .int, "", (0, 0), none, false⟩], [⟨"y", .int, "", (0, 0), none, false⟩]⟩ 0)
    "each") = .ok c ∧ evaluate garage c ["l"] = .ok ["7"] := by
  obtain ⟨c, d, h1, -, -, -, -, -, -, h2⟩ := C123_copy_evaluates shop garage
    (made (.forEach ⟨7, "w", (0, 0), [⟨"w - x", .int, "", (0, 0), none, false⟩], [⟨"y", .int, "", (0, 0), none, false⟩]⟩ 0) "each")
    (fromClass_made rfl rfl rfl rfl (by decide) (by decide)) ⟨7, rfl, rfl, rfl, rfl, rfl⟩
  exact ⟨c, h1, by rw [h2]; rfl⟩

/-- The number of outputs of a block.  Used in proofs only (no code). -/
def outCount : Kind τ α ω → Nat
  | .modelMethod _ => 2
  | .unpacker l => l.length
  | _ => 1

theorem bound_ok {β γ : Type} {x : Except PyErr β} {f : β → Except PyErr γ} {c : γ} : (x >>= f) = .ok c ↔ ∃ b, x = .ok b ∧ f b = .ok c := by
  cases x <;> simp [bind, Except.bind]

theorem ports_outs {n : String} {k : Kind τ α ω} {xs os : List (Var τ α)} (hp : ports E n k = .ok (xs, os)) : os.length = outCount k := by
  cases k with
  | unpacker l => simp only [ports, Except.ok.injEq, Prod.mk.injEq] at hp; rw [← hp.2]; simp [outCount]
  | modelMethod m => simp only [ports, bound_ok, Except.ok.injEq, Prod.mk.injEq] at hp; obtain ⟨_, -, -, rfl⟩ := hp; rfl
  | workflow W =>
    simp only [ports, subPorts, bound_ok] at hp
    obtain ⟨_, -, hp⟩ := hp
    split at hp
    · simp at hp
    · simp only [bound_ok, Except.ok.injEq, Prod.mk.injEq] at hp
      obtain ⟨_, -, -, rfl⟩ := hp
      rfl
  | forEach b i => simp only [ports, bound_ok, Except.ok.injEq, Prod.mk.injEq] at hp; obtain ⟨_, -, _, -, -, rfl⟩ := hp; rfl
  | instantiate _ | classMethod _ | getAttribute _ | setAttribute _ | «export» _ _ _ _ =>
    simp only [ports, bound_ok, Except.ok.injEq, Prod.mk.injEq] at hp; obtain ⟨_, -, -, rfl⟩ := hp; rfl
  | _ => simp only [ports, Except.ok.injEq, Prod.mk.injEq] at hp; rw [← hp.2]; rfl

/-- C123: a block which is evaluated gives one value for each of its outputs, whatever the values of its inputs. -/
theorem C123_outputs (H : Host α ω) (b : Blk τ α ω) (hb : FromClass E b) {vs ys : List α} (h : evaluate H b vs = .ok ys) :
    ys.length = b.outs.length := by
  obtain ⟨c, h1, hk, hn, -, h5⟩ := hb
  obtain ⟨hp, hkk, -, -⟩ := construct_inv E h1
  rw [← h5.length_eq]
  rw [← hkk, hk] at hp
  generalize c.ins = xs at hp
  generalize c.outs = os at hp
  have one : ∀ {r : Except PyErr α} {ys : List α}, (do let x ← r; Except.ok [x]) = .ok ys → ys.length = 1 := by
    intro r ys h
    cases r with
    | error e => simp [bind, Except.bind] at h
    | ok x => simp only [bind, Except.bind, Except.ok.injEq] at h; rw [← h]; rfl
  have size : ∀ {f : Int → Except PyErr α} {l : List Int} {ys : List α}, l.mapM f = .ok ys → ys.length = l.length := by
    intro f l
    induction l with
    | nil => intro ys h; simp [pure, Except.pure] at h; simp [h]
    | cons i l ih =>
      intro ys h
      rw [List.mapM_cons] at h
      cases hi : f i with
      | error e => simp [hi, bind, Except.bind] at h
      | ok x =>
        cases hl : l.mapM f with
        | error e => simp [hi, hl, bind, Except.bind] at h
        | ok r => simp [hi, hl, bind, Except.bind, pure, Except.pure] at h; rw [← h, List.length_cons, ih hl, List.length_cons]
  obtain ⟨kind, nm, pos, bi, bo⟩ := b
  clear h1 hk hn h5 hkk
  dsimp only at hp
  have ho := ports_outs E hp
  rw [ho]
  unfold evaluate at h
  dsimp only at h
  split at h
  all_goals first
    | exact one h
    | exact size h
    | (cases h; rfl)
    | (simp at h)
    | (obtain ⟨r, -, h⟩ := bound_ok.1 h; cases h; rfl)
    | (split at h
       · exact one h
       · simp at h)

/-- C123: the second output of a `ModelMethod` is the object on which the method was called, so that the calls can be chained. -/
theorem C123_model (H : Host α ω) (b : Blk τ α ω) {m : Ref} (hk : b.kind = .modelMethod m) {v : α} {vs ys : List α}
    (h : evaluate H b (v :: vs) = .ok ys) : ys[1]? = some v := by
  simp only [evaluate, hk] at h
  cases hr : H.call v m.name (named b.ins.tail vs) with
  | error e => simp [hr, bind, Except.bind] at h
  | ok x => simp only [hr, bind, Except.bind, Except.ok.injEq] at h; rw [← h]; rfl

/-- C123: the archive of an `Archive` block holds the values of all its inputs but the last, in order, and has the value of the last, which
is the input `Filename`, as name. -/
theorem C123_archive (H : Host α ω) (b : Blk τ α ω) (hb : FromClass E b) {n : Nat} {f : String} (hk : b.kind = .archive n f) (xs : List α) (x : α)
    (hl : (xs ++ [x]).length = b.ins.length) :
    xs.length = n ∧ (b.ins.getLast?.map Var.name) = some "Filename" ∧ ∀ ys, evaluate H b (xs ++ [x]) = .ok ys ↔ ∃ r, H.zip xs x = .ok r ∧ ys = [r] := by
  obtain ⟨c, h1, hck, -, h4, -⟩ := hb
  obtain ⟨hp, hkk, -, -⟩ := construct_inv E h1
  rw [← hkk, hck, hk] at hp
  simp only [ports, Except.ok.injEq, Prod.mk.injEq] at hp
  have hn : b.ins.length = n + 1 := by rw [← h4.length_eq, ← hp.1]; simp [numbered]
  have hlast : b.ins.getLast?.map Var.name = some "Filename" := by
    have e1 : b.ins[n]? = some (b.ins[n]'(by omega)) := List.getElem?_eq_getElem _
    have e2 : c.ins[n]? = some (filled E.strT "Filename" (E.text f)) := by rw [← hp.1]; simp [numbered]
    have hlt : n < c.ins.length := by rw [h4.length_eq]; omega
    have e3 := List.Forall₂.get h4 hlt (by omega)
    rw [List.getLast?_eq_getElem?, hn, Nat.add_sub_cancel, e1]
    rw [List.getElem?_eq_getElem hlt, Option.some.injEq] at e2
    simp only [List.get_eq_getElem, e2] at e3
    simp [e3.name, filled]
  refine ⟨by simp at hl; omega, hlast, fun ys => ?_⟩
  simp only [evaluate, hk, List.getLast?_append, List.getLast?_singleton, List.dropLast_concat, Option.some_or]
  cases H.zip xs x with
  | error e => simp [bind, Except.bind]
  | ok r => simp [bind, Except.bind, eq_comm]

/-- A case of `C123_outputs` and of `C123_model`. -/
example : FromClass shop (made (.modelMethod ⟨.method, car, "drive"⟩) "one") ∧
    evaluate garage (made (.modelMethod ⟨.method, car, "drive"⟩) "one") ["c", "3"] = .ok ["cdrive", "c"] ∧
    (made (.modelMethod ⟨.method, car, "drive"⟩) "one").outs.length = 2 :=
  ⟨fromClass_made (k := .modelMethod ⟨.method, car, "drive"⟩) rfl rfl rfl rfl (by decide) (by decide), rfl, rfl⟩

/-- A case of `C123_archive`. -/
example : FromClass shop (made (.archive 2 "files") "zip") ∧ (["one", "two"] ++ ["name"]).length = (made (.archive 2 "files") "zip").ins.length :=
  ⟨fromClass_made (k := .archive 2 "files") rfl rfl rfl rfl (by decide) (by decide), rfl⟩

/-- C123, partial: the copy of a block which has no locked input is equivalent to it.
Full statement: the copy of every block is equivalent to it.  Missing: the copy of a block does not keep the locks of its inputs, nor their
default values and labels (see the next theorem). -/
theorem C123_copy_equivalent_partial [DecidableEq τ] (b : Blk τ α ω) (hb : FromClass E b) (hl : ∀ x ∈ b.ins, x.lockFlag = false)
    (hf : FlowCopyEqual E b.kind) : ∃ c, copy E b = .ok c ∧ equivalent E b c = .ok true :=
  copy_equivalent E b hb hl hf

example : ∃ c, copy shop (made (.filter [⟨"price", "gt", 3, "f"⟩, ⟨"price", "gt", 3, "g"⟩] "or")) = .ok c ∧
    equivalent shop (made (.filter [⟨"price", "gt", 3, "f"⟩, ⟨"price", "gt", 3, "g"⟩] "or")) c = .ok true :=
  C123_copy_equivalent_partial shop _ (fromClass_made rfl rfl rfl rfl (by decide) (by decide)) (by decide) trivial

/-- C123, violated: the copy of a block with a locked input has no locked input, and is not equivalent to it. -/
theorem C123_lock_violated : ∃ b c : Blk DTy String Nat, FromClass shop b ∧ copy shop b = .ok c ∧ equivalent shop b c = .ok false ∧
    b.ins.map Var.lockFlag = [true] ∧ c.ins.map Var.lockFlag = [false] :=
  ⟨locked (made (.instantiate car)), _, ⟨made (.instantiate car), rfl, rfl, rfl, .cons (set_fixed _) .nil, .cons (set_refl _ rfl) .nil⟩, rfl,
    by decide, rfl, rfl⟩

/-- C123, violated: the selector of the copy of a display is no view, but an attribute. -/
theorem C123_selector_violated : ∃ c, copy shop (made (.display .cad ⟨.cad, car, "front"⟩ false)) = .ok c ∧
    c.kind = .display .cad ⟨.attribute, car, "front"⟩ false := ⟨_, rfl, rfl⟩

/-- C123, violated: of two filters which differ by their names only, the copy of a block has one name. -/
theorem C123_filter_violated : ∃ c, copy shop (made (.filter [⟨"price", "gt", 3, "f"⟩, ⟨"price", "gt", 3, "g"⟩] "or")) = .ok c ∧
    c.kind = .filter [⟨"price", "gt", 3, "f"⟩, ⟨"price", "gt", 3, "f"⟩] "or" := ⟨_, rfl, rfl⟩

end DC.Cat
