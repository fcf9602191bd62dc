import Verif.Files.ExcelFlat
import Verif.Files.ExcelPath
/-
Properties of the Excel files of objects.
-/
set_option linter.unusedSectionVars false
namespace DC.Xl

/-! ### Concrete settings -/

mutual
/-- Equality of two values. -/
def Val.eqb : Val → Val → Bool
  | .none, .none => true
  | .bool a, .bool b => a == b
  | .int a, .int b => a == b
  | .float a, .float b => decide (a = b)
  | .str a, .str b => a == b
  | .list a, .list b => Val.eqbs a b
  | .dict a, .dict b => Val.eqbe a b
  | .obj c n as, .obj d m bs => decide (c = d) && n == m && Val.eqbe as bs
  | _, _ => false
/-- Equality of two lists. -/
def Val.eqbs : List Val → List Val → Bool
  | [], [] => true
  | x :: l, y :: m => Val.eqb x y && Val.eqbs l m
  | _, _ => false
/-- Equality of two dictionaries. -/
def Val.eqbe : List (String × Val) → List (String × Val) → Bool
  | [], [] => true
  | (k, x) :: l, (q, y) :: m => k == q && Val.eqb x y && Val.eqbe l m
  | _, _ => false
end

mutual
theorem eqb_iff : ∀ a b : Val, Val.eqb a b = true ↔ a = b
  | .none, b => by cases b <;> simp [Val.eqb]
  | .bool a, b => by cases b <;> simp [Val.eqb]
  | .int a, b => by cases b <;> simp [Val.eqb]
  | .float a, b => by cases b <;> simp [Val.eqb]
  | .str a, b => by cases b <;> simp [Val.eqb]
  | .list a, b => by cases b <;> simp [Val.eqb, eqbs_iff a]
  | .dict a, b => by cases b <;> simp [Val.eqb, eqbe_iff a]
  | .obj c n as, b => by cases b <;> simp [Val.eqb, eqbe_iff as, and_assoc]
theorem eqbs_iff : ∀ a b : List Val, Val.eqbs a b = true ↔ a = b
  | [], b => by cases b <;> simp [Val.eqbs]
  | x :: l, b => by cases b <;> simp [Val.eqbs, eqb_iff x, eqbs_iff l]
theorem eqbe_iff : ∀ a b : List (String × Val), Val.eqbe a b = true ↔ a = b
  | [], b => by cases b <;> simp [Val.eqbe]
  | (k, x) :: l, b => by
    cases b with
    | nil => simp [Val.eqbe]
    | cons y m => obtain ⟨q, y⟩ := y; simp [Val.eqbe, eqb_iff x, eqbe_iff l, and_assoc]
end

instance : DecidableEq Val := fun a b => decidable_of_iff _ (eqb_iff a b)

/-- `str` of values which are no container of containers. -/
def shown : Val → String
  | .none => "None"
  | .bool true => "True"
  | .bool false => "False"
  | .int i => toString i
  | .str s => s
  | .list [] => "[]"
  | .list [.int 1, .int 2] => "[1, 2]"
  | _ => "?"

/-- `literal_eval` of some texts. -/
def literal (s : String) : Option Val :=
  if s = "None" then some .none
  else if s = "True" then some (.bool true)
  else if s = "False" then some (.bool false)
  else if s = "[]" then some (.list [])
  else if s = "[1, 2]" then some (.list [.int 1, .int 2])
  else if s = "3" then some (.int 3)
  else if s = "4" then some (.int 4)
  else none

/-- Classes of one module: their constructors store their arguments. -/
def classes : List (String × List (String × Bool)) :=
  [("Robot", [("arm", false), ("wheels", false), ("grid", false), ("mass", false), ("name", true)]),
   ("Arm", [("size", false), ("name", true)]),
   ("Wheel", [("radius", false), ("name", true)]),
   ("Box", [("x", false), ("y", false), ("name", true)])]

/-- A setting. -/
def shop : Setting where
  same := Val.eqb
  text := shown
  lit := literal
  round q := mkRat (q * 1000000 + 1 / 2).floor 1000000
  load m c := if m = "shop" then (if (classes.lookup c).isSome then .ok ⟨m, c⟩ else .error .attributeError) else .error .importError
  params c := (classes.lookup c.name).getD []
  build c d := .ok (.obj c (match d.lookup "name" with
    | some (.str s) => s
    | _ => "") (d.filter (·.1 != "name")))

/-- An arm. -/
def arm (n : String) (v : Val) : Val := .obj ⟨"shop", "Arm"⟩ n [("size", v)]
/-- A wheel. -/
def wheel (n : String) (v : Val) : Val := .obj ⟨"shop", "Wheel"⟩ n [("radius", v)]
/-- A box. -/
def box (n : String) (x y : Val) : Val := .obj ⟨"shop", "Box"⟩ n [("x", x), ("y", y)]
/-- A robot of one arm and two wheels. -/
def robot : Val := .obj ⟨"shop", "Robot"⟩ "r2" [("arm", arm "left" (.int 3)), ("grid", .list [.int 1, .int 2]), ("mass", .str "heavy"),
  ("wheels", .list [wheel "" (.int 3), wheel "rear" (.int 4)])]

mutual
/-- The values which are part of a value. -/
def subs : Val → List Val
  | .list l => .list l :: subsl l
  | .dict l => .dict l :: subse l
  | .obj c n as => .obj c n as :: subse as
  | v => [v]
/-- Those of a list. -/
def subsl : List Val → List Val
  | [] => []
  | x :: l => subs x ++ subsl l
/-- Those of a dictionary. -/
def subse : List (String × Val) → List Val
  | [] => []
  | (_, x) :: l => subs x ++ subse l
end

theorem mem_subsl {l : List Val} {x y : Val} (h : x ∈ l) (hy : y ∈ subs x) : y ∈ subsl l := by
  induction l with
  | nil => cases h
  | cons z l ih =>
    rw [subsl, List.mem_append]
    rcases List.mem_cons.1 h with rfl | h
    · exact .inl hy
    · exact .inr (ih h)

theorem mem_subse {l : List (String × Val)} {k : String} {x y : Val} (h : (k, x) ∈ l) (hy : y ∈ subs x) : y ∈ subse l := by
  induction l with
  | nil => cases h
  | cons z l ih =>
    obtain ⟨q, z⟩ := z
    rw [subse, List.mem_append]
    rcases List.mem_cons.1 h with h | h
    · cases h; exact .inl hy
    · exact .inr (ih h)

theorem mem_subs {v y : Val} (h : Sub v y) : y ∈ subs v := by
  induction h with
  | refl v => cases v <;> simp [subs]
  | item hx _ ih => rw [subs]; exact List.mem_cons_of_mem _ (mem_subsl hx ih)
  | entry hx _ ih => rw [subs]; exact List.mem_cons_of_mem _ (mem_subse hx ih)
  | attr hx _ ih => rw [subs]; exact List.mem_cons_of_mem _ (mem_subse hx ih)

theorem shown_of {s : String} (h : (match s.toList with
    | [] => false
    | '=' :: _ :: _ => false
    | _ => true) = true) : Shown s := by
  constructor
  · rintro rfl; simp at h
  · intro c t e; rw [e] at h; simp at h

variable {E : Setting} {o : Val}

/-! ### C124 -/

/-- Part of C124: an object which fits in tables is read from its Excel file equal to what was written.  The sheet of each class holds legible
values only, or one object whose links lead to the first object or to all the objects of sheets which follow it, or several objects whose
linked objects hold legible values only.  Missing: what does not fit, which is read otherwise or not at all (see the violations). -/
theorem C124_tabular_partial (h : Tabular E o) : read E (write E o).stored = .ok o := read_write h

/-- Part of C124, for objects whose attributes are legible values, objects of legible values, and lists of objects of legible values, each
attribute with objects of its own class: they are read as they were written.  Missing: two attributes of a class, dictionaries, deeper
objects, and values which are not legible (see the violations). -/
theorem C124_flat_partial (h : Flat E o) : read E (write E o).stored = .ok o := read_write (tabular_of_flat h)

instance (v : Val) : Decidable v.isObj := by
  cases v <;> unfold Val.isObj <;> infer_instance

theorem robot_flat : Flat shop robot where
  obj := trivial
  titles := by
    have : ∀ x ∈ subs robot, x.isObj → x.className ≠ "Object " ++ robot.className := by decide
    exact fun x hx => this x (mem_subs hx)
  named := by decide
  columns := by
    intro a ha
    simp only [robot, Val.attrs, List.mem_cons, List.not_mem_nil, or_false] at ha
    rcases ha with rfl | rfl | rfl | rfl
    · refine .inr (.inl ⟨⟨trivial, ?_⟩, shown_of (by decide), by decide⟩)
      intro a ha
      simp only [arm, Val.attrs, List.mem_singleton] at ha
      subst ha
      exact ⟨by decide, shown_of (by decide)⟩
    · exact .inl ⟨by decide, by decide, shown_of (by decide)⟩
    · exact .inl ⟨by decide, by decide, shown_of (by decide)⟩
    · refine .inr (.inr ⟨_, _, rfl, ?_, by decide⟩)
      intro y hy
      simp only [List.mem_cons, List.not_mem_nil, or_false] at hy
      rcases hy with rfl | rfl
      · refine ⟨⟨trivial, ?_⟩, rfl⟩
        intro a ha
        simp only [wheel, Val.attrs, List.mem_singleton] at ha
        subst ha
        exact ⟨by decide, shown_of (by decide)⟩
      · refine ⟨⟨trivial, ?_⟩, rfl⟩
        intro a ha
        simp only [wheel, Val.attrs, List.mem_singleton] at ha
        subst ha
        exact ⟨by decide, shown_of (by decide)⟩
  classes := by
    simp only [robot, Val.attrs, List.pairwise_cons, List.mem_cons, List.not_mem_nil, or_false, forall_eq_or_imp, forall_eq]
    simp [OfClass, arm, wheel, Val.isObj, Val.className]
  same := fun x y _ _ _ => eqb_iff x y
  rebuilds := by
    intro x hx ho
    have := mem_subs hx
    simp only [robot, subs, subse, subsl, arm, wheel, List.mem_cons, List.mem_append, List.not_mem_nil, or_false] at this
    rcases this with rfl | (rfl | rfl) | (rfl | rfl | rfl) | rfl | (rfl | (rfl | rfl) | (rfl | rfl)) <;>
      first
      | exact absurd ho (by decide)
      | exact ⟨shown_of (by decide), by decide, by rfl, by decide, .inr ⟨shown_of (by decide), by decide⟩⟩
      | exact ⟨shown_of (by decide), by decide, by rfl, by decide, .inl (by decide)⟩
  alike := by
    have : ∀ x ∈ subs robot, ∀ y ∈ subs robot, x.isObj → y.isObj → x.className = y.className → x.cls = y.cls ∧ headerOf x = headerOf y := by
      decide
    exact fun x y hx hy => this x (mem_subs hx) y (mem_subs hy)

/-- A robot of an arm and two wheels is read as it was written. -/
example : read shop (write shop robot).stored = .ok robot := C124_flat_partial robot_flat

/-- The same object fits in tables. -/
example : Tabular shop robot := tabular_of_flat robot_flat

/-- Two attributes of one class are both read as the first one. -/
theorem C124_same_class_violated :
    read shop (write shop (box "b" (arm "left" (.int 3)) (arm "right" (.int 4)))).stored =
      .ok (box "b" (arm "left" (.int 3)) (arm "left" (.int 3))) := by decide +kernel

/-- Two lists of one class are both read as the list of all the objects. -/
theorem C124_lists_violated :
    read shop (write shop (box "b" (.list [arm "left" (.int 3)]) (.list [arm "right" (.int 4)]))).stored =
      .ok (box "b" (.list [arm "left" (.int 3), arm "right" (.int 4)]) (.list [arm "left" (.int 3), arm "right" (.int 4)])) := by
  decide +kernel

/-- An object with a dictionary of objects is not read: a sheet is asked for by a pair. -/
theorem C124_dict_violated :
    read shop (write shop (box "b" (.dict [("left", arm "left" (.int 3))]) (.int 3))).stored = .error .keyError := by decide +kernel

/-- A text which is a literal is read as its value, an empty one as no value, and one which looks like a formula is lost. -/
theorem C124_text_violated :
    read shop (write shop (box "b" (.str "3") (.str ""))).stored = .ok (box "b" (.int 3) .none) ∧
    read shop (write shop (box "b" (.str "=3") (.int 3))).stored = .ok (box "b" .none (.int 3)) := by
  constructor <;> decide +kernel

/-- A number is read with six decimals. -/
theorem C124_round_violated :
    read shop (write shop (box "b" (.float (1 / 10000000)) (.int 3))).stored = .ok (box "b" (.float 0) (.int 3)) := by decide +kernel

/-- Boxes in a list: the lists they hold are read as one object, whose name is that of its class. -/
theorem C124_rows_violated :
    read shop (write shop (arm "a" (.list [box "b" (.list [wheel "w" (.int 3)]) (.int 3), box "c" (.int 3) (.int 4)]))).stored =
      .ok (arm "a" (.list [box "b" (wheel "Wheel" .none) (.int 3), box "c" (.int 3) (.int 4)])) := by decide +kernel

/-- Boxes in a list: the objects of the objects they hold are read as their paths. -/
theorem C124_nested_violated :
    read shop (write shop (arm "a" (.list [box "b" (wheel "w" (arm "in" (.int 3))) (.int 3), box "c" (.int 3) (.int 4)]))).stored =
      .ok (arm "a" (.list [box "b" (wheel "w" (.str "size.0.x.radius")) (.int 3), box "c" (.int 3) (.int 4)])) := by decide +kernel

/-- An attribute whose name contains that of a container is read as a list. -/
theorem C124_named_violated :
    ∃ E : Setting, read E (write E (.obj ⟨"shop", "Box"⟩ "b" [("ListedArm", arm "left" (.int 3))])).stored =
      .ok (.obj ⟨"shop", "Box"⟩ "b" [("ListedArm", .list [arm "left" (.int 3)])]) := by
  refine ⟨{ shop with params := fun c => if c.name = "Box" then [("ListedArm", false), ("name", true)] else shop.params c }, ?_⟩
  decide +kernel

/-! ### C125 -/

/-- `==` of the objects below the root is an equivalence, and equal objects have a class name in common. -/
structure Equal (E : Setting) (o : Val) : Prop where
  refl : ∀ x, Sub o x → x.isObj → E.same x x = true
  symm : ∀ x y, Sub o x → Sub o y → x.isObj → y.isObj → E.same x y = true → E.same y x = true
  trans : ∀ x y z, Sub o x → Sub o y → Sub o z → x.isObj → y.isObj → z.isObj → E.same x y = true → E.same y z = true → E.same x z = true
  classes : ∀ x y, Sub o x → Sub o y → x.isObj → y.isObj → E.same x y = true → x.className = y.className

theorem Equal.equality (h : Equal E o) : Equality E (Sub o) := ⟨h.refl, h.trans⟩

/-- An object strictly below a root. -/
def Below (o y : Val) : Prop := y.isObj ∧ ∃ k x, (k, x) ∈ o.attrs ∧ k ≠ "" ∧ Sub x y

/-- C125: each sheet but the main one has the name of a class for title, and lists, once each, the objects of this class below the root: every
one of them is equal to one of the listed ones, which are different from each other.  The titles are different too. -/
theorem C125_sheets (h : Equal E o) (ho : o.isObj) :
    ((write E o).tail.map (·.title)).Nodup ∧
    (∀ s ∈ (write E o).tail, ∃ l : List Val, l ≠ [] ∧ s.rows = l.map (rowOf E (breakdown E o "")) ∧ (l.Pairwise fun x y => E.same x y = false) ∧
      (∀ x ∈ l, Sub o x ∧ x.isObj ∧ x.className = s.title) ∧ ∀ y, Below o y → y.className = s.title → ∃ x ∈ l, E.same x y = true) ∧
    ∀ y, Below o y → ∃ s ∈ (write E o).tail, s.title = y.className := by
  have hi := inv_breakdown h.equality
  have ht : (write E o).tail = (breakdown E o "").map (sheetOf E (breakdown E o "")) := rfl
  obtain ⟨c, n, as, rfl⟩ := isObj_iff.1 ho
  have hhas : ∀ y, Below (.obj c n as) y → Has E (breakdown E (.obj c n as) "") y := by
    rintro y ⟨hy, k, x, hk, hne, hs⟩
    exact has_of_sub h.equality hk hne hs hy
  refine ⟨?_, ?_, ?_⟩
  · rw [ht, List.map_map]
    exact hi.nodup
  · intro s hs
    rw [ht] at hs
    obtain ⟨cl, hc, rfl⟩ := List.mem_map.1 hs
    refine ⟨cl.2.map (·.1), by simpa using hi.ne cl hc, by simp [sheetOf], List.pairwise_map.2 (hi.apart cl hc), ?_, ?_⟩
    · intro x hx
      obtain ⟨e, he, rfl⟩ := List.mem_map.1 hx
      have := hi.mem cl hc e he
      exact ⟨this.1, this.2.1, this.2.2.1⟩
    · intro y hy hyc
      obtain ⟨l, h1, e, h2, h3⟩ := hhas y hy
      have : cl.2 = l := mem_keys_unique hi.nodup (c := cl.1) (by exact hc) (by rw [hyc] at h1; exact h1)
      exact ⟨e.1, by rw [this]; exact List.mem_map_of_mem h2, h3⟩
  · intro y hy
    obtain ⟨l, h1, -⟩ := hhas y hy
    rw [ht]
    exact ⟨_, List.mem_map.2 ⟨_, h1, rfl⟩, rfl⟩

/-- C125: the cell of an attribute which is an object is linked to the row of an equal object, in the sheet of its class, and shows a path. -/
theorem C125_links (h : Equal E o) (ho : o.isObj) {y : Val} (hy : Below o y) :
    ∃ s r x, s ∈ (write E o).tail ∧ s.title = y.className ∧ s.rows[r]? = some (rowOf E (breakdown E o "") x) ∧ E.same x y = true ∧
      Sub o x ∧ ∃ p, s.paths[r]? = some p ∧ cellOf E (breakdown E o "") y = ⟨.text p, some ⟨s.title, r + 4⟩⟩ := by
  have hi := inv_breakdown h.equality
  obtain ⟨c, n, as, rfl⟩ := isObj_iff.1 ho
  obtain ⟨hyo, k, x, hk, hne, hs⟩ := hy
  have hsub : Sub (.obj c n as) y := .attr hk hs
  obtain ⟨l, h1, e, h2, h3⟩ := has_of_sub h.equality hk hne hs hyo
  obtain ⟨i, hi'⟩ := List.getElem?_of_mem h2
  have hfind : ((places (breakdown E (.obj c n as) "")).reverse.find? fun e => E.same e.1 y).isSome := by
    rw [List.find?_isSome]
    refine ⟨(e.1, ⟨y.className, i + 2⟩, e.2), ?_, h3⟩
    rw [List.mem_reverse, mem_places]
    exact ⟨_, l, i, h1, hi', rfl⟩
  obtain ⟨f, hf⟩ := Option.isSome_iff_exists.1 hfind
  have hfm := List.mem_of_find?_eq_some hf
  have hfs : E.same f.1 y = true := by simpa using List.find?_some hf
  rw [List.mem_reverse, mem_places] at hfm
  obtain ⟨c', l', r, g1, g2, g3⟩ := hfm
  have hm := hi.mem _ g1 _ (List.mem_of_getElem? g2)
  have hcl : c' = y.className := by
    rw [← h.classes f.1 y hm.1 hsub hm.2.1 hyo hfs]
    exact hm.2.2.1.symm
  subst hcl
  refine ⟨sheetOf E (breakdown E (.obj c n as) "") (y.className, l'), r, f.1, List.mem_map.2 ⟨_, g1, rfl⟩, rfl, ?_, hfs, hm.1, f.2.2, ?_, ?_⟩
  · simp [sheetOf, g2]
  · simp [sheetOf, g2]
  · have hp : place E (breakdown E (.obj c n as) "") y = some (⟨y.className, r + 2⟩, f.2.2) := by
      unfold place
      rw [hf, Option.map_some, ← g3]
    obtain ⟨c1, n1, as1, rfl⟩ := isObj_iff.1 hyo
    exact linked_obj hp

/-- C125: the first column of a row holds a path which leads, from the root, to an object equal to that of the row. -/
theorem C125_paths (h : Equal E o) : ∀ s ∈ (write E o).tail, ∃ l : List Val, s.rows = l.map (rowOf E (breakdown E o "")) ∧
    List.Forall₂ (fun x p => ∃ y, Leads o "" p y ∧ E.same x y = true) l s.paths := by
  have hl := breakdown_led h.equality o "" (fun _ h => h)
  intro s hs
  have ht : (write E o).tail = (breakdown E o "").map (sheetOf E (breakdown E o "")) := rfl
  rw [ht] at hs
  obtain ⟨cl, hc, rfl⟩ := List.mem_map.1 hs
  refine ⟨cl.2.map (·.1), by simp [sheetOf], ?_⟩
  have hcl := hl cl hc
  simp only [sheetOf]
  generalize cl.2 = l at hcl
  induction l with
  | nil => exact .nil
  | cons e l ih =>
    refine .cons ?_ (ih fun f hf => hcl f (by simp [hf]))
    obtain ⟨-, -, y, -, -, h1, h2⟩ := hcl e (by simp)
    exact ⟨y, h1, h2⟩

theorem shop_equal (o : Val) : Equal shop o := by
  refine ⟨fun x _ _ => (eqb_iff x x).2 rfl, fun x y _ _ _ _ h => ?_, fun x y z _ _ _ _ _ _ h1 h2 => ?_, fun x y _ _ _ _ h => ?_⟩
  · have := (eqb_iff x y).1 h; subst this; exact h
  · have := (eqb_iff x y).1 h1; subst this; exact h2
  · rw [(eqb_iff x y).1 h]

example : Equal shop robot ∧ robot.isObj ∧ Below robot (wheel "rear" (.int 4)) :=
  ⟨shop_equal _, trivial, trivial, "wheels", _, List.mem_cons_of_mem _ (List.mem_cons_of_mem _ (List.mem_cons_of_mem _ (List.mem_cons_self ..))),
    by decide, .item (List.mem_cons_of_mem _ (List.mem_cons_self ..)) (.refl _)⟩

/-- What the workbook of the robot holds. -/
example : (write shop robot).map (fun s => (s.title, s.paths)) =
    [("Object Robot", [""]), ("Arm", ["arm"]), ("Wheel", ["wheels.0", "wheels.1"])] := by decide +kernel

end DC.Xl
