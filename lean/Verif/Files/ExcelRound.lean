import Verif.Files.ExcelBreak
import Mathlib.Data.List.Infix
/-
An object which fits in tables is read from its Excel file as it was written.
-/
set_option linter.unusedSectionVars false
namespace DC.Xl

/-! ### Specification -/

/-- A text which openpyxl keeps: it is not empty, and it is no formula.  Used in proofs only (no code). -/
def Shown (s : String) : Prop := s ≠ "" ∧ ∀ c t, s.toList ≠ '=' :: c :: t

/-- A value which is read in its cell as it was: the text of a constant or of a list of constants is a literal for it, a string is no
literal, a number has no more than six decimals.  Used in proofs only (no code). -/
def Legible (E : Setting) : Val → Prop
  | .none => E.lit (E.text .none) = some .none ∧ Shown (E.text .none)
  | .bool b => E.lit (E.text (.bool b)) = some (.bool b) ∧ Shown (E.text (.bool b))
  | .int i => E.lit (E.text (.int i)) = some (.int i) ∧ Shown (E.text (.int i))
  | .float q => E.round q = q
  | .str s => E.text (.str s) = s ∧ E.lit s = none ∧ Shown s
  | .list l => l.all Val.builtin = true ∧ E.lit (E.text (.list l)) = some (.list l) ∧ Shown (E.text (.list l))
  | _ => False

/-- The named arguments of the constructor for an object: its name (`None` when it is empty) and its attributes.  Used in proofs only (no code). -/
def args (E : Setting) (c : Cls) (n : String) (as : List (String × Val)) : List (String × Val) :=
  (("name", if n = "" then .none else .str n) :: sorted as).filter fun a => (E.params c).any (·.1 == a.1)

/-- The class of an object has a name and can be imported, every argument of its constructor without default value is an attribute, the constructor gives
the object back from its attributes, and its name is no literal.  Used in proofs only (no code). -/
def Rebuilds (E : Setting) : Val → Prop
  | .obj c n as => Shown c.name ∧ E.load c.mod c.name = .ok c ∧ E.build c (args E c n as) = .ok (.obj c n as) ∧
      (∀ p ∈ E.params c, p.2 = false → p.1 = "name" ∨ p.1 ∈ as.map (·.1)) ∧ (n = "" ∨ (Shown n ∧ E.lit n = none))
  | _ => True

/-- The attributes of an object.  Used in proofs only (no code). -/
def Val.attrs : Val → List (String × Val)
  | .obj _ _ as => as
  | _ => []

/-- The class of an object.  Used in proofs only (no code). -/
def Val.cls : Val → Cls
  | .obj c _ _ => c
  | _ => ⟨"", ""⟩

/-- A value in a row which is alone in its sheet: a legible one, the first object of a class, or the list of all the objects of a class, for
the classes `post`; the path of the object is not taken for the title of a container.  Used in proofs only (no code). -/
def Alone (E : Setting) (post : BD) (v : Val) : Prop :=
  Legible E v ∨
  (v.isObj ∧ ∃ p l, (v.className, (v, p) :: l) ∈ post ∧ Shown p ∧ ∀ w ∈ ["Dict", "List", "Set", "Tuple"], contains p w = false) ∨
  (∃ x xs l, v = .list (x :: xs) ∧ (x :: xs).all Val.builtin = false ∧ (x.className, l) ∈ post ∧ x :: xs = l.map (·.1))

/-- A value in a row which is not alone in its sheet: a legible one, or an object whose attributes are legible.  Used in proofs only (no code). -/
def Among (E : Setting) (v : Val) : Prop := Legible E v ∨ (v.isObj ∧ ∀ a ∈ v.attrs, Legible E a.2)

/-- The objects of a sheet which can be read before those of the classes `post`.  Used in proofs only (no code). -/
def Fits (E : Setting) (post : BD) (l : List (Val × String)) : Prop :=
  (∀ e ∈ l, ∀ a ∈ e.1.attrs, Legible E a.2) ∨
  (∃ e, l = [e] ∧ ∀ a ∈ e.1.attrs, Alone E post a.2) ∨
  (1 < l.length ∧ ∀ e ∈ l, ∀ a ∈ e.1.attrs, Among E a.2)

/-- An object which fits in tables: no class has the title of the main sheet for a name; the attributes of the root have names; `==` on the objects below it is identity; they can be rebuilt; the
objects of a class name have one class and the same attributes; the sheet of each class fits before those of the classes which follow it, and
the root fits before all of them.  Used in proofs only (no code). -/
structure Tabular (E : Setting) (o : Val) : Prop where
  obj : o.isObj
  titles : ∀ x, Sub o x → x.isObj → x.className ≠ "Object " ++ o.className
  named : ∀ a ∈ o.attrs, a.1 ≠ ""
  same : ∀ x y, Sub o x → Sub o y → x.isObj → (E.same x y = true ↔ x = y)
  rebuilds : ∀ x, Sub o x → x.isObj → Rebuilds E x
  alike : ∀ x y, Sub o x → Sub o y → x.isObj → y.isObj → x.className = y.className → x.cls = y.cls ∧ headerOf x = headerOf y
  root : ∀ a ∈ o.attrs, Alone E (breakdown E o "") a.2
  sheets : ∀ pre cl post, breakdown E o "" = pre ++ cl :: post → Fits E post cl.2

/-! ### Cells -/

variable {E : Setting}

theorem Tabular.equality {o : Val} (h : Tabular E o) : Equality E (Sub o) := by
  refine ⟨fun x hx ho => (h.same x x hx hx ho).2 rfl, fun x y z hx hy hz hox hoy _ h1 h2 => ?_⟩
  have e1 := (h.same x y hx hy hox).1 h1
  have e2 := (h.same y z hy hz hoy).1 h2
  subst e1 e2
  exact h1

theorem Tabular.inv {o : Val} (h : Tabular E o) : Inv E (Sub o) (breakdown E o "") := inv_breakdown h.equality

theorem mem_rowsOf {t : String} {l : List (Val × String)} : ∀ {i : Nat} {e : Val × Link × String},
    e ∈ rowsOf t i l ↔ ∃ k, l[k]? = some (e.1, e.2.2) ∧ e.2.1 = ⟨t, i + k + 2⟩ := by
  induction l with
  | nil => intro i e; simp [rowsOf]
  | cons a l ih =>
    intro i e
    obtain ⟨x, p⟩ := a
    obtain ⟨y, lk, q⟩ := e
    simp only [rowsOf, List.mem_cons, ih]
    constructor
    · rintro (h | ⟨k, h1, h2⟩)
      · cases h
        exact ⟨0, rfl, by simp⟩
      · refine ⟨k + 1, by simpa using h1, ?_⟩
        rw [h2]; congr 1; omega
    · rintro ⟨k, h1, h2⟩
      cases k with
      | zero =>
        simp only [List.getElem?_cons_zero, Option.some.injEq, Prod.mk.injEq] at h1
        obtain ⟨rfl, rfl⟩ := h1
        left
        rw [Prod.mk.injEq, Prod.mk.injEq]
        exact ⟨rfl, by simpa using h2, rfl⟩
      | succ k =>
        refine .inr ⟨k, by simpa using h1, ?_⟩
        rw [h2]; congr 1; omega

theorem mem_places {bd : BD} {e : Val × Link × String} :
    e ∈ places bd ↔ ∃ c l k, (c, l) ∈ bd ∧ l[k]? = some (e.1, e.2.2) ∧ e.2.1 = ⟨c, k + 2⟩ := by
  simp only [places, List.mem_flatMap, mem_rowsOf]
  constructor
  · rintro ⟨⟨c, l⟩, h, k, h1, h2⟩
    exact ⟨c, l, k, h, h1, by rw [h2]; congr 1; omega⟩
  · rintro ⟨c, l, k, h, h1, h2⟩
    exact ⟨(c, l), h, k, h1, by rw [h2]; congr 1; omega⟩

theorem mem_keys_unique {d : BD} (hd : (d.map (·.1)).Nodup) {c : String} {l l' : List (Val × String)} (h : (c, l) ∈ d) (h' : (c, l') ∈ d) :
    l = l' := by
  induction d with
  | nil => simp at h
  | cons a d ih =>
    rw [List.map_cons, List.nodup_cons] at hd
    rcases List.mem_cons.1 h with h | h <;> rcases List.mem_cons.1 h' with h' | h'
    · rw [← h] at h'; cases h'; rfl
    · exact absurd (List.mem_map_of_mem (f := (·.1)) h') (by rw [← h] at hd; exact hd.1)
    · exact absurd (List.mem_map_of_mem (f := (·.1)) h) (by rw [← h'] at hd; exact hd.1)
    · exact ih hd.2 h h'

theorem find?_unique {β : Type} {f : β → Bool} {a : β} {l : List β} (h : a ∈ l) (ha : f a = true) (hu : ∀ b ∈ l, f b = true → b = a) :
    l.find? f = some a := by
  induction l with
  | nil => simp at h
  | cons b l ih =>
    by_cases hb : f b
    · rw [List.find?_cons_of_pos hb, hu b (by simp) hb]
    · rw [List.find?_cons_of_neg hb]
      refine ih ?_ (fun c hc => hu c (by simp [hc]))
      rcases List.mem_cons.1 h with h | h
      · subst h; exact absurd ha hb
      · exact h

variable {o : Val}

theorem place_obj (h : Tabular E o) {v : Val} (hv : Sub o v) {c : String} {l : List (Val × String)} {k : Nat} {p : String}
    (hc : (c, l) ∈ breakdown E o "") (hk : l[k]? = some (v, p)) : place E (breakdown E o "") v = some (⟨c, k + 2⟩, p) := by
  have hi := h.inv
  have hm := hi.mem _ hc _ (List.mem_of_getElem? hk)
  unfold place
  rw [find?_unique (a := (v, ⟨c, k + 2⟩, p))]
  · rfl
  · rw [List.mem_reverse, mem_places]
    exact ⟨c, l, k, hc, hk, rfl⟩
  · exact (h.same v v hv hv hm.2.1).2 rfl
  · intro e he hs
    rw [List.mem_reverse, mem_places] at he
    obtain ⟨c', l', k', h1, h2, h3⟩ := he
    have hm' := hi.mem _ h1 _ (List.mem_of_getElem? h2)
    have hev : e.1 = v := (h.same e.1 v hm'.1 hv hm'.2.1).1 hs
    have hcc : c' = c := by
      have e1 : e.1.className = c' := hm'.2.2.1
      have e2 : v.className = c := hm.2.2.1
      rw [← e1, ← e2, hev]
    subst hcc
    have hl := mem_keys_unique hi.nodup hc h1
    subst hl
    have hkk : k' = k := by
      have hp := hi.apart _ hc
      have hlt : k < l.length := (List.getElem?_eq_some_iff.1 hk).1
      have hlt' : k' < l.length := (List.getElem?_eq_some_iff.1 h2).1
      have g1 := (List.getElem?_eq_some_iff.1 hk).2
      have g2 := (List.getElem?_eq_some_iff.1 h2).2
      rw [List.pairwise_iff_getElem] at hp
      have hr : E.same v v = true := (h.same v v hv hv hm.2.1).2 rfl
      rcases Nat.lt_trichotomy k' k with hlt1 | heq | hlt1
      · have := hp k' k hlt' hlt hlt1
        simp only [g1, g2, hev, hr] at this
        cases this
      · exact heq
      · have := hp k k' hlt hlt' hlt1
        simp only [g1, g2, hev, hr] at this
        cases this
    subst hkk
    rw [hk] at h2
    obtain ⟨e1, e2, e3⟩ := e
    simp only [Option.some.injEq, Prod.mk.injEq] at h2 h3 hev ⊢
    exact ⟨hev, h3, h2.2.symm⟩

theorem place_none (h : Tabular E o) {v : Val} (hv : Sub o v) (hn : ¬ v.isObj) : place E (breakdown E o "") v = none := by
  unfold place
  rw [Option.map_eq_none_iff, List.find?_eq_none]
  intro e he hs
  rw [List.mem_reverse, mem_places] at he
  obtain ⟨c', l', k', h1, h2, h3⟩ := he
  have hm' := h.inv.mem _ h1 _ (List.mem_of_getElem? h2)
  have hev : e.1 = v := (h.same e.1 v hm'.1 hv hm'.2.1).1 hs
  exact hn (hev ▸ hm'.2.1)

theorem stored_shown {s : String} (h : Shown s) : stored (.text s) = .text s := by
  unfold stored
  simp only
  split
  · rename_i h0
    exact absurd (String.toList_inj.1 (h0.trans (by rfl : ([] : List Char) = "".toList))) h.1
  · rename_i c t hs
    exact absurd hs (h.2 _ _)
  · rfl

/-- A cell, as it is read.  Used in proofs only (no code). -/
def Cell.stored (c : Cell) : Cell := { c with value := Xl.stored c.value }

theorem legible_cell (h : Tabular E o) {v : Val} (hv : Sub o v) (hl : Legible E v) :
    ∃ c, got (cellOf E (breakdown E o "") v).stored = .cell c ∧ evaluated E (.cell c) = .ok v := by
  have hp : ¬ v.isObj → place E (breakdown E o "") v = none := place_none h hv
  cases v with
  | none =>
    have hp := hp (by simp [Val.isObj])
    refine ⟨stored (.text (E.text .none)), ?_, ?_⟩
    · simp [got, cellOf, Cell.stored, linkOf, contentOf, Val.truth, hp]
    · rw [stored_shown hl.2]; simp only [evaluated, hl.1]
  | bool b =>
    have hp := hp (by simp [Val.isObj])
    refine ⟨stored (.text (E.text (.bool b))), ?_, ?_⟩
    · simp [got, cellOf, Cell.stored, linkOf, contentOf, Val.truth, hp]
    · rw [stored_shown hl.2]; simp only [evaluated, hl.1]
  | int i =>
    have hp := hp (by simp [Val.isObj])
    refine ⟨stored (.text (E.text (.int i))), ?_, ?_⟩
    · simp [got, cellOf, Cell.stored, linkOf, contentOf, Val.truth, hp]
    · rw [stored_shown hl.2]; simp only [evaluated, hl.1]
  | float q =>
    have hp := hp (by simp [Val.isObj])
    refine ⟨.num (E.round q), ?_, ?_⟩
    · simp [got, cellOf, Cell.stored, linkOf, contentOf, Val.truth, hp, stored]
    · simp only [evaluated]; rw [show E.round q = q from hl]
  | str s =>
    have hp := hp (by simp [Val.isObj])
    refine ⟨stored (.text s), ?_, ?_⟩
    · simp [got, cellOf, Cell.stored, linkOf, contentOf, Val.truth, hp, hl.1]
    · rw [stored_shown hl.2.2]; simp only [evaluated, hl.2.1]
  | list l =>
    refine ⟨stored (.text (E.text (.list l))), ?_, ?_⟩
    · simp only [got, cellOf, Cell.stored, linkOf, contentOf, hl.1, if_true]
      simp
    · rw [stored_shown hl.2.2]; simp only [evaluated, hl.2.1]
  | dict l => exact absurd hl (by simp [Legible])
  | obj c n as => exact absurd hl (by simp [Legible])

/-! ### Rows -/

theorem name_cell {n : String} (h : n = "" ∨ (Shown n ∧ E.lit n = none)) :
    evaluated E (.cell (stored (.text n))) = .ok (if n = "" then Val.none else .str n) := by
  rcases h with h | ⟨h, hl⟩
  · subst h
    rfl
  · rw [stored_shown h, if_neg h.1]
    simp only [evaluated, hl]

theorem getData_ok (ps : List (String × Bool)) : ∀ (as : List (String × Val)) (gs : List Got) (n m : Nat) (d : Got),
    List.Forall₂ (fun a g => evaluated E g = .ok a.2) as gs →
    getData E ps (as.map (some ·.1) ++ List.replicate n none) (gs ++ List.replicate m d) =
      .ok (as.filter fun a => ps.any (·.1 == a.1))
  | _, _, n, m, d, .nil => by
    simp only [List.map_nil, List.nil_append, List.filter_nil]
    induction n generalizing m with
    | zero => simp [getData]
    | succ n ih =>
      cases m with
      | zero => simp [List.replicate_succ, getData]
      | succ m => simp only [List.replicate_succ, getData]; exact ih m
  | a :: as, g :: gs, n, m, d, .cons h hs => by
    have ih := getData_ok ps as gs n m d hs
    obtain ⟨k, v⟩ := a
    simp only [List.map_cons, List.cons_append, getData, List.filter_cons]
    simp only at h
    by_cases hk : (ps.any fun x => x.1 == k)
    · simp only [hk, if_true, h, ih, bind, Except.bind]
    · simp only [hk, Bool.false_eq_true, if_false, ih]

theorem createObject_ok {c : Cls} {n : String} {as : List (String × Val)} (hr : Rebuilds E (.obj c n as)) {gs : List Got} (k m : Nat) (d : Got)
    (hg : List.Forall₂ (fun a g => evaluated E g = .ok a.2) (sorted as) gs) {g : Got} (hn : g = .cell (stored (.text n))) :
    createObject E c ((headerOf (.obj c n as)).map some ++ List.replicate k none) (g :: gs ++ List.replicate m d) = .ok (.obj c n as) := by
  obtain ⟨_, h1, h2, h3, h4⟩ := hr
  unfold createObject
  have := getData_ok (E := E) (E.params c) (("name", if n = "" then .none else .str n) :: sorted as) (g :: gs) k m d
    (.cons (by rw [hn]; exact name_cell h4) hg)
  simp only [headerOf, List.map_cons, List.map_map] at this ⊢
  rw [show (some ∘ fun x : String × Val => x.1) = fun x => some x.1 from rfl]
  rw [this]
  simp only [bind, Except.bind]
  exact h2

theorem mem_sorted {as : List (String × Val)} {a : String × Val} : a ∈ sorted as ↔ a ∈ as := (sortBy_perm _ as).mem_iff

theorem missed_ok {c : Cls} {n : String} {as : List (String × Val)} (hr : Rebuilds E (.obj c n as)) (k : Nat) :
    missed (E.params c) ((headerOf (.obj c n as)).map some ++ List.replicate k none) = .ok () := by
  unfold missed
  split
  · rfl
  · rw [if_neg]
    simp only [List.any_eq_true, Bool.and_eq_true, Bool.not_eq_true', not_exists, not_and]
    intro p hp hd
    rw [Bool.not_eq_false, List.contains_iff_mem]
    rw [List.mem_append]
    left
    rw [List.mem_map]
    refine ⟨p.1, ?_, rfl⟩
    rcases hr.2.2.2.1 p hp hd with h | h
    · simp [headerOf, h]
    · obtain ⟨a, ha, hka⟩ := List.mem_map.1 h
      simp only [headerOf, List.mem_cons, List.mem_map]
      exact .inr ⟨a, mem_sorted.2 ha, hka⟩

/-! ### Sheets -/

theorem foldl_max_eq {l : List Nat} {n : Nat} (h : ∀ x ∈ l, x ≤ n) : l.foldl max n = n := by
  induction l with
  | nil => rfl
  | cons x l ih =>
    simp only [List.foldl_cons]
    rw [Nat.max_eq_left (h x (by simp))]
    exact ih (fun y hy => h y (by simp [hy]))

theorem rowOf_length (bd : BD) (v : Val) : (rowOf E bd v).length = (headerOf v).length := by
  cases v <;> simp [rowOf, headerOf]

theorem pad_eq {β : Type} {n : Nat} {d : β} {l : List β} : pad n d l = l ++ List.replicate (n - l.length) d := rfl

/-- The sheet of a class, as it is read: its rows have the width of its header. -/
theorem sheet_width (h : Tabular E o) {cl : String × List (Val × String)} (hc : cl ∈ breakdown E o "") {x : Val × String} (hx : x ∈ cl.2) :
    (sheetOf E (breakdown E o "") cl).stored.header = headerOf x.1 ∧
    (sheetOf E (breakdown E o "") cl).stored.width = (headerOf x.1).length ∧
    (sheetOf E (breakdown E o "") cl).stored.mod = x.1.cls.mod ∧
    (sheetOf E (breakdown E o "") cl).stored.className = stored (.text x.1.cls.name) := by
  have hi := h.inv
  have hm := hi.mem _ hc
  have hal : ∀ y ∈ cl.2, y.1.cls = x.1.cls ∧ headerOf y.1 = headerOf x.1 := fun y hy =>
    h.alike y.1 x.1 (hm y hy).1 (hm x hx).1 (hm y hy).2.1 (hm x hx).2.1 ((hm y hy).2.2.1.trans (hm x hx).2.2.1.symm)
  have hobj : ∀ y ∈ cl.2, ∃ c n as, y.1 = Val.obj c n as := by
    intro y hy
    have := (hm y hy).2.1
    cases hv : y.1 <;> simp [hv, Val.isObj] at this ⊢
  have hhead : (sheetOf E (breakdown E o "") cl).stored.header = headerOf x.1 := by
    simp only [Sheet.stored, sheetOf]
    cases hl : cl.2.getLast? with
    | none => rw [List.getLast?_eq_none_iff] at hl; rw [hl] at hx; simp at hx
    | some y => exact (hal y (List.mem_of_getLast? hl)).2
  have hpos : 1 ≤ (headerOf x.1).length := by
    obtain ⟨c, n, as, e⟩ := hobj x hx
    rw [e]; simp [headerOf]
  obtain ⟨y, l, hyl⟩ : ∃ y l, cl.2 = y :: l := by
    cases hcl : cl.2 with
    | nil => rw [hcl] at hx; simp at hx
    | cons y l => exact ⟨y, l, rfl⟩
  have hy := hal y (by rw [hyl]; simp)
  obtain ⟨c, n, as, e⟩ := hobj y (by rw [hyl]; simp)
  refine ⟨hhead, ?_, ?_, ?_⟩
  · unfold Sheet.width
    rw [hhead]
    have : (sheetOf E (breakdown E o "") cl).stored.second.length = 1 := by
      simp [Sheet.stored, sheetOf, hyl]
    rw [this, Nat.max_eq_right hpos]
    refine foldl_max_eq ?_
    intro k hk
    simp only [Sheet.stored, sheetOf, List.map_map, List.mem_map] at hk
    obtain ⟨z, hz, rfl⟩ := hk
    simp only [Function.comp_apply, List.length_map, rowOf_length]
    rw [(hal z hz).2]
  · simp only [Sheet.stored, sheetOf, hyl]
    rw [← hy.1, e]
    rfl
  · simp only [Sheet.className, Sheet.stored, sheetOf, hyl]
    rw [← hy.1, e]
    rfl

/-- The columns of the row of an object, as they are extracted.  Used in proofs only (no code). -/
def gots (E : Setting) (bd : BD) (v : Val) : List Got := (rowOf E bd v).map fun c => got c.stored

theorem gots_obj (bd : BD) (c : Cls) (n : String) (as : List (String × Val)) :
    gots E bd (.obj c n as) = .cell (stored (.text n)) :: (sorted as).map fun a => got (cellOf E bd a.2).stored := by
  simp only [gots, rowOf, List.map_cons, List.map_map]
  rfl

/-- What is extracted from the sheet of a class.  Used in proofs only (no code). -/
def extracted (E : Setting) (bd : BD) (cl : String × List (Val × String)) : String × Extract :=
  match cl.2 with
  | (x, _) :: _ => (cl.1, ⟨x.cls, (headerOf x).map some, cl.2.map fun e => gots E bd e.1⟩)
  | [] => (cl.1, ⟨⟨"", ""⟩, [], []⟩)

theorem isObj_iff {v : Val} : v.isObj ↔ ∃ c n as, v = .obj c n as := by
  cases v <;> simp [Val.isObj]

theorem extract_ok {x : Val} (hx : x.isObj) (hr : Rebuilds E x) (k : Nat) (data : List (List Got)) :
    extract E x.cls.mod (stored (.text x.cls.name)) ((headerOf x).map some ++ List.replicate k none) data =
      .ok ⟨x.cls, (headerOf x).map some ++ List.replicate k none, data⟩ := by
  obtain ⟨c, n, as, rfl⟩ := isObj_iff.1 hx
  have hm := missed_ok hr k
  simp only [extract, Val.cls, stored_shown hr.1, CVal.str, bind, Except.bind, hr.2.1, hm]

theorem sheet_attributes (h : Tabular E o) {cl : String × List (Val × String)} (hc : cl ∈ breakdown E o "") {x : Val × String} (hx : x ∈ cl.2) :
    (sheetOf E (breakdown E o "") cl).stored.attributes = (headerOf x.1).map some := by
  obtain ⟨h1, h2, -, -⟩ := sheet_width h hc hx
  simp only [Sheet.attributes, h1, h2, pad, List.length_map, Nat.sub_self, List.replicate_zero, List.append_nil]

theorem sheet_data (h : Tabular E o) {cl : String × List (Val × String)} (hc : cl ∈ breakdown E o "") :
    (sheetOf E (breakdown E o "") cl).stored.data = cl.2.map fun e => gots E (breakdown E o "") e.1 := by
  unfold Sheet.data
  simp only [Sheet.stored, sheetOf, List.map_map]
  refine List.map_congr_left ?_
  intro e he
  obtain ⟨-, h2, -, -⟩ := sheet_width h hc he
  simp only [Sheet.stored, sheetOf, List.map_map] at h2
  simp only [Function.comp_apply, List.map_map, pad, gots, List.length_map, rowOf_length]
  rw [h2, Nat.sub_self, List.replicate_zero, List.append_nil]
  rfl

theorem extractSheet_ok (h : Tabular E o) {cl : String × List (Val × String)} (hc : cl ∈ breakdown E o "") :
    extractSheet E (sheetOf E (breakdown E o "") cl).stored = .ok (extracted E (breakdown E o "") cl) := by
  have hm := h.inv.mem _ hc
  obtain ⟨y, l, hyl⟩ : ∃ y l, cl.2 = y :: l := by
    cases hcl : cl.2 with
    | nil => exact absurd hcl (h.inv.ne _ hc)
    | cons y l => exact ⟨y, l, rfl⟩
  have hy : y ∈ cl.2 := by rw [hyl]; simp
  obtain ⟨-, -, h3, h4⟩ := sheet_width h hc hy
  have := extract_ok (hm y hy).2.1 (h.rebuilds _ (hm y hy).1 (hm y hy).2.1) 0 (cl.2.map fun e => gots E (breakdown E o "") e.1)
  simp only [List.replicate_zero, List.append_nil] at this
  simp only [extractSheet, sheet_attributes h hc hy, sheet_data h hc, h3, h4, this, bind, Except.bind, extracted]
  simp only [hyl, Sheet.stored, sheetOf]

theorem main_ok (h : Tabular E o) : ∃ k m, extractSheet E (mainSheet E (breakdown E o "") o o.nameOf).stored =
    .ok ("Object " ++ o.className, ⟨o.cls, (headerOf o).map some ++ List.replicate k none,
      [gots E (breakdown E o "") o ++ List.replicate m (.cell .none)]⟩) := by
  obtain ⟨c, n, as, rfl⟩ := isObj_iff.1 h.obj
  generalize hbd : breakdown E (.obj c n as) "" = bd
  refine ⟨(mainSheet E bd (.obj c n as) n).stored.width - (headerOf (.obj c n as)).length,
    (mainSheet E bd (.obj c n as) n).stored.width - (gots E bd (.obj c n as)).length, ?_⟩
  have := extract_ok (E := E) (x := .obj c n as) trivial (h.rebuilds _ (.refl _) trivial)
    ((mainSheet E bd (.obj c n as) n).stored.width - (headerOf (.obj c n as)).length)
    [gots E bd (.obj c n as) ++ List.replicate ((mainSheet E bd (.obj c n as) n).stored.width - (gots E bd (.obj c n as)).length) (.cell .none)]
  unfold extractSheet
  have e1 : (mainSheet E bd (.obj c n as) n).stored.mod = c.mod := rfl
  have e2 : (mainSheet E bd (.obj c n as) n).stored.className = stored (.text c.name) := rfl
  have e3 : (mainSheet E bd (.obj c n as) n).stored.attributes = (headerOf (.obj c n as)).map some ++
      List.replicate ((mainSheet E bd (.obj c n as) n).stored.width - (headerOf (.obj c n as)).length) none := by
    simp only [Sheet.attributes, pad, List.length_map]
    rfl
  have e4 : (mainSheet E bd (.obj c n as) n).stored.data = [gots E bd (.obj c n as) ++
      List.replicate ((mainSheet E bd (.obj c n as) n).stored.width - (gots E bd (.obj c n as)).length) (.cell .none)] := by
    have : (mainSheet E bd (.obj c n as) n).stored.rows.map (fun r => r.map got) = [gots E bd (.obj c n as)] := by
      simp only [Sheet.stored, mainSheet, List.map_cons, List.map_nil, gots, List.map_map]
      rfl
    unfold Sheet.data
    simp only [pad]
    have h0 : (mainSheet E bd (.obj c n as) n).stored.rows = [(rowOf E bd (.obj c n as)).map Cell.stored] := rfl
    rw [h0] at this ⊢
    simp only [List.map_cons, List.map_nil, List.cons.injEq, and_true] at this ⊢
    rw [this]
  simp only [Val.nameOf, e1, e2, e3, e4]
  rw [show (Val.obj c n as).cls = c from rfl] at this
  simp only [this, bind, Except.bind]
  rfl

theorem mapM_ok {β γ δ : Type} {f : γ → Except PyErr δ} {g : β → γ} {h : β → δ} {l : List β} (hl : ∀ x ∈ l, f (g x) = .ok (h x)) :
    (l.map g).mapM f = .ok (l.map h) := by
  induction l with
  | nil => rfl
  | cons x l ih =>
    simp only [List.map_cons, List.mapM_cons, hl x (by simp), ih (fun y hy => hl y (by simp [hy])), bind, Except.bind, pure, Except.pure]

/-! ### Links -/

theorem linked_obj {bd : BD} {c : Cls} {n : String} {as : List (String × Val)} {t p : String} {k : Nat}
    (hp : place E bd (.obj c n as) = some (⟨t, k⟩, p)) : cellOf E bd (.obj c n as) = ⟨.text p, some ⟨t, k + 2⟩⟩ := by
  simp [cellOf, contentOf, linkOf, Val.truth, hp]

theorem linked_list {bd : BD} {x : Val} {xs : List Val} (hb : (x :: xs).all Val.builtin = false) :
    cellOf E bd (.list (x :: xs)) = ⟨.text ("List of " ++ toString (x :: xs).length ++ " items"), some ⟨x.className, 2⟩⟩ := by
  simp only [cellOf, contentOf, linkOf, hb, Val.truth]
  rfl

theorem contains_mem {s t : String} (h : contains s t = true) {c : Char} (hc : c ∈ t.toList) : c ∈ s.toList := by
  unfold contains at h
  rw [List.any_eq_true] at h
  obtain ⟨u, hu, hp⟩ := h
  rw [List.mem_tails] at hu
  exact hu.subset ((List.isPrefixOf_iff_prefix.1 hp).subset hc)

theorem list_title (n : Nat) : Shown ("List of " ++ toString n ++ " items") ∧ contains ("List of " ++ toString n ++ " items") "Dict" = false ∧
    contains ("List of " ++ toString n ++ " items") "List" = true := by
  have ht : ("List of " ++ toString n ++ " items").toList = "List of ".toList ++ (Nat.toDigits 10 n ++ " items".toList) := by
    rw [String.toList_append, String.toList_append, List.append_assoc]
    congr 2
    exact Nat.toList_repr
  refine ⟨⟨?_, ?_⟩, ?_, ?_⟩
  · intro h
    rw [h] at ht
    have : ("" : String).toList = [] := rfl
    rw [this] at ht
    have hl := congrArg List.length ht
    rw [List.length_append] at hl
    have : "List of ".toList.length = 8 := by decide
    simp only [List.length_nil] at hl
    omega
  · intro c t h
    rw [ht] at h
    have : "List of ".toList = ['L', 'i', 's', 't', ' ', 'o', 'f', ' '] := by decide
    rw [this] at h
    simp at h
  · by_contra hd
    rw [Bool.not_eq_false] at hd
    have := contains_mem hd (c := 'D') (by decide)
    rw [ht, List.mem_append, List.mem_append] at this
    rcases this with h | h | h
    · exact absurd h (by decide)
    · exact absurd (Nat.isDigit_of_mem_toDigits (by decide) (by decide) h) (by decide)
    · exact absurd h (by decide)
  · unfold contains
    rw [List.any_eq_true]
    refine ⟨_, (List.mem_tails _ _).2 (List.suffix_refl _), ?_⟩
    rw [ht, List.isPrefixOf_iff_prefix]
    have : "List of ".toList = "List".toList ++ " of ".toList := by decide
    rw [this, List.append_assoc]
    exact List.prefix_append _ _

/-! ### Objects -/

theorem get_set {inst : Inst} {k q : String} {v : List Val} : Inst.get (Dict.set inst k v) q = if q = k then .ok v else Inst.get inst q := by
  unfold Inst.get
  rw [Dict.lookup_set]
  by_cases h : q = k <;> simp [h]

theorem evaluated_val {v : Val} (h : ∀ s, v ≠ .str s) : evaluated E (.val v) = .ok v := by
  cases v <;> first | rfl | exact absurd rfl (h _)

theorem mapM_row {f : Got → Except PyErr Got} {β : Type} (hf : ∀ c, f (.cell c) = .ok (.cell c)) (q : β → Got → Prop) :
    ∀ (as : List β) (gs : List Got) (m : Nat), List.Forall₂ (fun a g => ∃ g', f g = .ok g' ∧ q a g') as gs →
    ∃ gs', (gs ++ List.replicate m (Got.cell .none)).mapM f = .ok (gs' ++ List.replicate m (Got.cell .none)) ∧ List.Forall₂ q as gs'
  | _, _, m, .nil => by
    refine ⟨[], ?_, .nil⟩
    simp only [List.nil_append]
    induction m with
    | zero => rfl
    | succ m ih => simp only [List.replicate_succ, List.mapM_cons, hf, ih, bind, Except.bind, pure, Except.pure]
  | a :: as, g :: gs, m, .cons ⟨g', h1, h2⟩ h => by
    obtain ⟨gs', e, hq⟩ := mapM_row hf q as gs m h
    refine ⟨g' :: gs', ?_, .cons h2 hq⟩
    simp only [List.cons_append, List.mapM_cons, h1, e, bind, Except.bind, pure, Except.pure]

theorem forall₂_map {β γ : Type} {r : β → γ → Prop} {f : β → γ} {l : List β} (h : ∀ x ∈ l, r x (f x)) : List.Forall₂ r l (l.map f) := by
  induction l with
  | nil => exact .nil
  | cons x l ih => exact .cons (h x (by simp)) (ih fun y hy => h y (by simp [hy]))

/-- The columns of an object, once links are replaced by `f`, are those of its arguments. -/
theorem row_ok {c : Cls} {n : String} {as : List (String × Val)} {bd : BD} (hr : Rebuilds E (.obj c n as)) {f : Got → Except PyErr Got}
    (hf : ∀ c, f (.cell c) = .ok (.cell c)) (h : ∀ a ∈ as, ∃ g, f (got (cellOf E bd a.2).stored) = .ok g ∧ evaluated E g = .ok a.2) (k m : Nat) :
    ∃ r, (gots E bd (.obj c n as) ++ List.replicate m (Got.cell .none)).mapM f = .ok r ∧
      createObject E c ((headerOf (.obj c n as)).map some ++ List.replicate k none) r = .ok (.obj c n as) := by
  rw [gots_obj]
  obtain ⟨gs', e, hq⟩ := mapM_row hf (fun (a : String × Val) g => evaluated E g = .ok a.2) (sorted as)
    ((sorted as).map fun a => got (cellOf E bd a.2).stored) m (forall₂_map fun a ha => h a (mem_sorted.1 ha))
  refine ⟨.cell (stored (.text n)) :: (gs' ++ List.replicate m (Got.cell .none)), ?_, ?_⟩
  · simp only [List.cons_append, List.mapM_cons, hf, e, bind, Except.bind, pure, Except.pure]
  · exact createObject_ok hr k m _ hq rfl

theorem plain_ok {c : Cls} {n : String} {as : List (String × Val)} (h : Tabular E o) (ho : Sub o (.obj c n as))
    (hl : ∀ a ∈ as, Legible E a.2) :
    createObject E c ((headerOf (.obj c n as)).map some) (gots E (breakdown E o "") (.obj c n as)) = .ok (.obj c n as) := by
  have := row_ok (bd := breakdown E o "") (h.rebuilds _ ho trivial) (f := fun g => .ok g) (fun _ => rfl) (fun a ha => ?_) 0 0
  · obtain ⟨r, h1, h2⟩ := this
    simp only [List.replicate_zero, List.append_nil] at h1 h2
    have e : (gots E (breakdown E o "") (.obj c n as)).mapM (fun g => (Except.ok g : Except PyErr Got)) =
        .ok (gots E (breakdown E o "") (.obj c n as)) := by
      have := mapM_ok (f := fun g => (Except.ok g : Except PyErr Got)) (g := fun g : Got => g) (h := fun g => g)
        (l := gots E (breakdown E o "") (.obj c n as)) (fun _ _ => rfl)
      simpa using this
    rw [e] at h1
    cases h1
    exact h2
  · obtain ⟨cv, e1, e2⟩ := legible_cell h (ho.trans (.attr (k := a.1) ha (.refl _))) (hl a ha)
    exact ⟨_, rfl, by rw [e1]; exact e2⟩

/-- The book which is read. -/
theorem book_titles : (write E o).stored.map (·.title) = ("Object " ++ o.className) :: (breakdown E o "").map (·.1) := by
  simp only [Book.stored, write, List.map_cons, List.map_map]
  rfl

theorem location_ok {cl : String × List (Val × String)} (hc : cl ∈ breakdown E o "") (r : Nat) :
    location (write E o).stored ⟨cl.1, r⟩ = .ok cl.1 := by
  unfold location
  rw [if_pos]
  have : cl.1 ∈ (write E o).stored.map (·.title) := by
    rw [book_titles]
    exact List.mem_cons_of_mem _ (List.mem_map_of_mem hc)
  obtain ⟨s, hs, e⟩ := List.mem_map.1 this
  rw [List.any_eq_true]
  exact ⟨s, hs, by simpa using e⟩

theorem title_ne (h : Tabular E o) {cl : String × List (Val × String)} (hc : cl ∈ breakdown E o "") : cl.1 ≠ "Object " ++ o.className := by
  obtain ⟨y, hy⟩ := List.exists_mem_of_ne_nil _ (h.inv.ne _ hc)
  have := h.inv.mem _ hc y hy
  rw [← this.2.2.1]
  exact h.titles _ this.1 this.2.1

theorem find_sheet (h : Tabular E o) {cl : String × List (Val × String)} (hc : cl ∈ breakdown E o "") :
    (write E o).stored.find? (·.title == cl.1) = some (sheetOf E (breakdown E o "") cl).stored := by
  have hne := title_ne h hc
  have hn := h.inv.nodup
  have e : (write E o).stored = (mainSheet E (breakdown E o "") o o.nameOf).stored ::
      (breakdown E o "").map fun cl => (sheetOf E (breakdown E o "") cl).stored := by
    simp only [Book.stored, write, List.map_cons, List.map_map]
    rfl
  rw [e, List.find?_cons_of_neg]
  · refine find?_unique (List.mem_map.2 ⟨cl, hc, rfl⟩) (by simp [Sheet.stored, sheetOf]) ?_
    intro s hs ht
    obtain ⟨cl', hc', rfl⟩ := List.mem_map.1 hs
    have ht : cl'.1 = cl.1 := by simpa [Sheet.stored, sheetOf] using ht
    have : cl' = cl := by
      obtain ⟨c, l⟩ := cl
      obtain ⟨c', l'⟩ := cl'
      simp only at ht
      subst ht
      rw [mem_keys_unique hn hc hc']
    rw [this]
  · simp only [Sheet.stored, mainSheet, beq_iff_eq]
    exact fun e => hne e.symm

theorem has_obj (h : Tabular E o) {x v : Val} {k : String} (hx : Sub o x) (hv : (k, v) ∈ x.attrs) (ho : v.isObj) :
    ∃ (l : List (Val × String)) (i : Nat) (p : String), (v.className, l) ∈ breakdown E o "" ∧ l[i]? = some (v, p) := by
  obtain ⟨c, n, as, rfl⟩ := isObj_iff.1 h.obj
  have : ∃ q w, (q, w) ∈ as ∧ Sub w v := by
    have hs : Sub x v := by
      cases x <;> first | exact .attr hv (.refl _) | exact absurd hv (by simp [Val.attrs])
    cases hx with
    | refl => exact ⟨k, v, hv, .refl _⟩
    | attr ha hb => exact ⟨_, _, ha, hb.trans hs⟩
  obtain ⟨q, w, hw, hs⟩ := this
  obtain ⟨l, hl, e, he, hsame⟩ := has_of_sub h.equality hw (h.named _ hw) hs ho
  obtain ⟨i, hi⟩ := List.getElem?_of_mem he
  have hm := h.inv.mem _ hl e he
  have : e.1 = v := (h.same e.1 v hm.1 (.attr hw hs) hm.2.1).1 hsame
  refine ⟨l, i, e.2, hl, ?_⟩
  rw [hi, ← this]

/-- The columns of a row, for an object whose attributes are legible. -/
theorem row_cells {c : Cls} {n : String} {as : List (String × Val)} (h : Tabular E o) (ho : Sub o (.obj c n as))
    (hl : ∀ a ∈ as, Legible E a.2) :
    (rowOf E (breakdown E o "") (.obj c n as)).map (fun x => Got.cell x.stored.value) = gots E (breakdown E o "") (.obj c n as) := by
  unfold gots
  refine List.map_congr_left ?_
  intro x hx
  simp only [rowOf, List.mem_cons, List.mem_map] at hx
  rcases hx with rfl | ⟨a, ha, rfl⟩
  · rfl
  · obtain ⟨cv, e1, -⟩ := legible_cell h (ho.trans (.attr (k := a.1) (mem_sorted.1 ha) (.refl _))) (hl a (mem_sorted.1 ha))
    unfold got at e1 ⊢
    split at e1
    · cases e1
    · rename_i hn
      rfl

theorem sub_ok (h : Tabular E o) {x v : Val} {k : String} (hx : Sub o x) (hv : (k, v) ∈ x.attrs) (ho : v.isObj)
    (hl : ∀ a ∈ v.attrs, Legible E a.2) :
    ∃ g, subObject E (write E o).stored (got (cellOf E (breakdown E o "") v).stored) = .ok g ∧ evaluated E g = .ok v := by
  obtain ⟨l, i, p, hc, hi⟩ := has_obj h hx hv ho
  have hsub : Sub o v := hx.trans (by
    cases x <;> first | exact .attr hv (.refl _) | exact absurd hv (by simp [Val.attrs]))
  have hmem : (v, p) ∈ l := List.mem_of_getElem? hi
  have hp := place_obj h hsub hc hi
  obtain ⟨c, n, as, rfl⟩ := isObj_iff.1 ho
  refine ⟨.val (.obj c n as), ?_, rfl⟩
  rw [linked_obj hp]
  obtain ⟨h1, h2, h3, h4⟩ := sheet_width h hc hmem
  have h5 := sheet_attributes h hc hmem
  have hx := extract_ok (E := E) (x := .obj c n as) trivial (h.rebuilds _ hsub trivial) 0 []
  simp only [List.replicate_zero, List.append_nil] at hx
  have hrow : ((sheetOf E (breakdown E o "") (Val.className (.obj c n as), l)).stored.row (i + 4)).map Got.cell =
      gots E (breakdown E o "") (.obj c n as) := by
    have hr : (sheetOf E (breakdown E o "") (Val.className (.obj c n as), l)).stored.rows[i]? =
        some ((rowOf E (breakdown E o "") (.obj c n as)).map Cell.stored) := by
      simp only [Sheet.stored, sheetOf, List.map_map, List.getElem?_map, hi, Option.map_some]
      rfl
    have : (sheetOf E (breakdown E o "") (Val.className (.obj c n as), l)).stored.row (i + 4) =
        pad (headerOf (.obj c n as)).length .none (((rowOf E (breakdown E o "") (.obj c n as)).map Cell.stored).map Cell.value) := by
      unfold Sheet.row
      rw [h2]
      simp only [Nat.add_sub_cancel, hr]
      simp
    rw [this, ← row_cells h hsub hl]
    simp only [pad, List.length_map, rowOf_length, Nat.sub_self, List.replicate_zero, List.append_nil, List.map_map]
    rfl
  have hlo := location_ok hc (i + 4)
  have hf := find_sheet h hc
  have hpl := plain_ok h hsub hl
  simp only at hlo hf
  simp only [got, Cell.stored, subObject, bind, Except.bind, hlo, hf, h3, h4, h5, hx, hrow]
  rw [show (Val.obj c n as).cls = c from rfl, hpl]

/-- The objects of some classes were read.  Used in proofs only (no code). -/
def Ready (inst : Inst) (post : BD) : Prop := ∀ cl ∈ post, Inst.get inst cl.1 = .ok (cl.2.map (·.1))

theorem replaced_ok (h : Tabular E o) {inst : Inst} {post : BD} (hin : ∀ cl ∈ post, cl ∈ breakdown E o "") (hrd : Ready inst post)
    {v : Val} (hv : Sub o v) (ha : Alone E post v) :
    ∃ g, replaced (write E o).stored inst (got (cellOf E (breakdown E o "") v).stored) = .ok g ∧ evaluated E g = .ok v := by
  rcases ha with hl | ⟨ho, p, l, hc, hsh, hw⟩ | ⟨x, xs, l, rfl, hb, hc, hl⟩
  · obtain ⟨cv, e1, e2⟩ := legible_cell h hv hl
    exact ⟨.cell cv, by rw [e1]; rfl, e2⟩
  · have hp := place_obj h hv (hin _ hc) (k := 0) rfl
    have hg := hrd _ hc
    have hlo := location_ok (hin _ hc) 4
    simp only at hg hlo
    obtain ⟨c, n, as, rfl⟩ := isObj_iff.1 ho
    refine ⟨.val (.obj c n as), ?_, rfl⟩
    rw [linked_obj hp]
    simp only [got, Cell.stored, replaced, bind, Except.bind, hlo, hg, update, stored_shown hsh, CVal.str, hw "Dict" (by simp), List.map_cons]
    rw [if_neg (by simp), if_neg]
    rw [List.any_eq_true]
    rintro ⟨w, hw1, hw2⟩
    rw [hw w hw1] at hw2
    cases hw2
  · have hg := hrd _ hc
    have hlo := location_ok (hin _ hc) 2
    simp only at hg hlo
    refine ⟨.val (.list (x :: xs)), ?_, rfl⟩
    rw [linked_list hb]
    obtain ⟨t1, t2, t3⟩ := list_title (x :: xs).length
    simp only [got, Cell.stored, replaced, bind, Except.bind, hlo, hg, update, stored_shown t1, CVal.str, t2]
    rw [if_neg (by simp), if_pos]
    · rw [hl]
    · rw [List.any_eq_true]
      exact ⟨"List", by simp, t3⟩

theorem singleRow_ok (h : Tabular E o) {inst : Inst} {post : BD} (hin : ∀ cl ∈ post, cl ∈ breakdown E o "") (hrd : Ready inst post)
    {v : Val} (hv : Sub o v) (hobj : v.isObj) (ha : ∀ a ∈ v.attrs, Alone E post a.2) (k m : Nat) :
    singleRow E (write E o).stored inst ⟨v.cls, (headerOf v).map some ++ List.replicate k none,
      [gots E (breakdown E o "") v ++ List.replicate m (.cell .none)]⟩ = .ok [v] := by
  obtain ⟨c, n, as, rfl⟩ := isObj_iff.1 hobj
  obtain ⟨r, h1, h2⟩ := row_ok (bd := breakdown E o "") (h.rebuilds _ hv trivial) (f := replaced (write E o).stored inst) (fun _ => rfl)
    (fun a ha' => replaced_ok h hin hrd (hv.trans (.attr (k := a.1) ha' (.refl _))) (ha a ha')) k m
  simp only [singleRow, h1, bind, Except.bind, Val.cls, h2]

theorem multiRow_ok (h : Tabular E o) {v : Val} (hv : Sub o v) (hobj : v.isObj) (ha : ∀ a ∈ v.attrs, Among E a.2) (d : List (List Got)) :
    multiRow E (write E o).stored ⟨v.cls, (headerOf v).map some, d⟩ (gots E (breakdown E o "") v) = .ok v := by
  obtain ⟨c, n, as, rfl⟩ := isObj_iff.1 hobj
  obtain ⟨r, h1, h2⟩ := row_ok (bd := breakdown E o "") (h.rebuilds _ hv trivial) (f := subObject E (write E o).stored) (fun _ => rfl)
    (fun a ha' => by
      rcases ha a ha' with hl | ⟨ho, hl⟩
      · obtain ⟨cv, e1, e2⟩ := legible_cell h (hv.trans (.attr (k := a.1) ha' (.refl _))) hl
        exact ⟨.cell cv, by rw [e1]; rfl, e2⟩
      · exact sub_ok h hv (k := a.1) ha' ho hl) 0 0
  simp only [List.replicate_zero, List.append_nil] at h1 h2
  simp only [multiRow, h1, bind, Except.bind, Val.cls, h2]

theorem gots_linked {bd : BD} {v : Val} (hn : (gots E bd v).any Got.isLinked = false) {a : String × Val} (ha : a ∈ v.attrs) :
    (cellOf E bd a.2).link = none := by
  have ho : v.isObj := by
    cases v <;> simp [Val.attrs, Val.isObj] at ha ⊢
  obtain ⟨c, n, as, rfl⟩ := isObj_iff.1 ho
  rw [gots_obj, List.any_cons, Bool.or_eq_false_iff, List.any_eq_false] at hn
  have := hn.2 (got (cellOf E bd a.2).stored) (List.mem_map.2 ⟨a, mem_sorted.2 ha, rfl⟩)
  cases hl : (cellOf E bd a.2).link with
  | none => rfl
  | some l => simp [got, Cell.stored, hl, Got.isLinked] at this

theorem legible_of_alone (h : Tabular E o) {post : BD} (hin : ∀ cl ∈ post, cl ∈ breakdown E o "") {v : Val} (hv : Sub o v)
    (ha : Alone E post v) (hn : (cellOf E (breakdown E o "") v).link = none) : Legible E v := by
  rcases ha with hl | ⟨ho, p, l, hc, hsh, hw⟩ | ⟨x, xs, l, rfl, hb, hc, hl⟩
  · exact hl
  · have hp := place_obj h hv (hin _ hc) (k := 0) rfl
    obtain ⟨c, n, as, rfl⟩ := isObj_iff.1 ho
    rw [linked_obj hp] at hn
    cases hn
  · rw [linked_list hb] at hn
    cases hn

theorem legible_of_among (h : Tabular E o) {x v : Val} {k : String} (hx : Sub o x) (hv : (k, v) ∈ x.attrs)
    (ha : Among E v) (hn : (cellOf E (breakdown E o "") v).link = none) : Legible E v := by
  rcases ha with hl | ⟨ho, hl⟩
  · exact hl
  · obtain ⟨l, i, p, hc, hi⟩ := has_obj h hx hv ho
    have hsub : Sub o v := hx.trans (by
      cases x <;> first | exact .attr hv (.refl _) | exact absurd hv (by simp [Val.attrs]))
    have hp := place_obj h hsub hc hi
    obtain ⟨c, n, as, rfl⟩ := isObj_iff.1 ho
    rw [linked_obj hp] at hn
    cases hn

theorem legible_not_linked (h : Tabular E o) {v : Val} (hv : Sub o v) (hobj : v.isObj) (hl : ∀ a ∈ v.attrs, Legible E a.2) :
    (gots E (breakdown E o "") v).any Got.isLinked = false := by
  obtain ⟨c, n, as, rfl⟩ := isObj_iff.1 hobj
  rw [gots_obj, List.any_cons, Bool.or_eq_false_iff, List.any_eq_false]
  refine ⟨rfl, ?_⟩
  intro g hg
  obtain ⟨a, ha, rfl⟩ := List.mem_map.1 hg
  obtain ⟨cv, e1, e2⟩ := legible_cell h (hv.trans (.attr (k := a.1) (mem_sorted.1 ha) (.refl _))) (hl a (mem_sorted.1 ha))
  rw [e1]
  simp [Got.isLinked]

/-- The sheet of a class gives its objects, once those of the sheets which follow it are read. -/
theorem sheetObjects_ok (h : Tabular E o) {inst : Inst} {pre post : BD} {cl : String × List (Val × String)}
    (hbd : breakdown E o "" = pre ++ cl :: post) (hrd : Ready inst post) :
    sheetObjects E (write E o).stored inst (extracted E (breakdown E o "") cl).2 = .ok (cl.2.map (·.1)) := by
  have hc : cl ∈ breakdown E o "" := by rw [hbd]; simp
  have hin : ∀ cl ∈ post, cl ∈ breakdown E o "" := by intro x hx; rw [hbd]; simp [hx]
  have hm := h.inv.mem _ hc
  obtain ⟨y, l, hyl⟩ : ∃ y l, cl.2 = y :: l := by
    cases hcl : cl.2 with
    | nil => exact absurd hcl (h.inv.ne _ hc)
    | cons y l => exact ⟨y, l, rfl⟩
  have hy : y ∈ cl.2 := by rw [hyl]; simp
  have hal : ∀ z ∈ cl.2, y.1.cls = z.1.cls ∧ headerOf y.1 = headerOf z.1 := fun z hz =>
    h.alike y.1 z.1 (hm y hy).1 (hm z hz).1 (hm y hy).2.1 (hm z hz).2.1 ((hm y hy).2.2.1.trans (hm z hz).2.2.1.symm)
  have hex : (extracted E (breakdown E o "") cl).2 = ⟨y.1.cls, (headerOf y.1).map some, cl.2.map fun e => gots E (breakdown E o "") e.1⟩ := by
    simp only [extracted, hyl]
  rw [hex]
  have hfit := h.sheets pre cl post hbd
  have hsimple : (∀ e ∈ cl.2, ∀ a ∈ e.1.attrs, Legible E a.2) →
      simpleSheet E ⟨y.1.cls, (headerOf y.1).map some, cl.2.map fun e => gots E (breakdown E o "") e.1⟩ = .ok (cl.2.map (·.1)) := by
    intro hl
    refine mapM_ok ?_
    intro e he
    have hs := (hm e he).1
    have ho := (hm e he).2.1
    have hle := hl e he
    have hae := hal e he
    simp only [hae.1, hae.2]
    generalize e.1 = v at hs ho hle
    obtain ⟨c, n, as, rfl⟩ := isObj_iff.1 ho
    exact plain_ok h hs hle
  unfold sheetObjects
  by_cases hlk : (cl.2.map fun e => gots E (breakdown E o "") e.1).any (·.any Got.isLinked) = true
  · rw [if_pos hlk]
    rcases hfit with hl | ⟨e, he, ha⟩ | ⟨hlen, ha⟩
    · exfalso
      rw [List.any_eq_true] at hlk
      obtain ⟨r, hr, hr2⟩ := hlk
      obtain ⟨e, he, rfl⟩ := List.mem_map.1 hr
      rw [legible_not_linked h (hm e he).1 (hm e he).2.1 (hl e he)] at hr2
      cases hr2
    · have hey : y = e := by rw [hyl] at he; cases he; rfl
      subst hey
      rw [he]
      simp only [List.map_cons, List.map_nil, List.length_cons, List.length_nil]
      rw [if_neg (by omega)]
      have := singleRow_ok h hin hrd (hm y hy).1 (hm y hy).2.1 ha 0 0
      simpa using this
    · simp only [List.length_map]
      rw [if_pos hlen]
      refine mapM_ok ?_
      intro e he
      have := multiRow_ok h (hm e he).1 (hm e he).2.1 (ha e he) (cl.2.map fun e => gots E (breakdown E o "") e.1)
      rw [(hal e he).1, (hal e he).2]
      exact this
  · rw [if_neg hlk]
    refine hsimple ?_
    rw [Bool.not_eq_true, List.any_eq_false] at hlk
    intro e he a hae
    have hne : (gots E (breakdown E o "") e.1).any Got.isLinked = false := by
      have := hlk _ (List.mem_map.2 ⟨e, he, rfl⟩)
      simpa using this
    have hlink := gots_linked hne hae
    have hsub : Sub o a.2 := (hm e he).1.trans (by
      have ho := (hm e he).2.1
      generalize e.1 = v at ho hae
      obtain ⟨c, n, as, rfl⟩ := isObj_iff.1 ho
      exact .attr (k := a.1) hae (.refl _))
    rcases hfit with hl | ⟨e', he', ha⟩ | ⟨hlen, ha⟩
    · exact hl e he a hae
    · have : e = e' := by rw [he'] at he; simpa using he
      subst this
      exact legible_of_alone h hin hsub (ha a hae) hlink
    · exact legible_of_among h (hm e he).1 (k := a.1) hae (ha e he a hae) hlink

theorem extracted_fst (bd : BD) (cl : String × List (Val × String)) : (extracted E bd cl).1 = cl.1 := by
  unfold extracted
  split <;> rfl

theorem readLoop_ok (h : Tabular E o) (rest : List (String × Extract)) : ∀ (rpre post : BD) (inst : Inst),
    breakdown E o "" = rpre.reverse ++ post → Ready inst post →
    ∃ inst', Ready inst' (breakdown E o "") ∧
      readLoop E (write E o).stored ("Object " ++ o.className) (rpre.map (extracted E (breakdown E o "")) ++ rest) inst =
        readLoop E (write E o).stored ("Object " ++ o.className) rest inst'
  | [], post, inst, hbd, hrd => by
    simp only [List.reverse_nil, List.nil_append] at hbd
    exact ⟨inst, by rw [hbd]; exact hrd, rfl⟩
  | cl :: rpre, post, inst, hbd, hrd => by
    have hbd' : breakdown E o "" = rpre.reverse ++ cl :: post := by rw [hbd]; simp
    have hc : cl ∈ breakdown E o "" := by rw [hbd']; simp
    have hso := sheetObjects_ok h hbd' hrd
    obtain ⟨inst', h1, h2⟩ := readLoop_ok h rest rpre (cl :: post) (Dict.set inst cl.1 (cl.2.map (·.1))) hbd' (by
      intro c hc'
      rw [get_set]
      rcases List.mem_cons.1 hc' with rfl | hc'
      · rw [if_pos rfl]
      · rw [if_neg]
        · exact hrd c hc'
        · have hn := h.inv.nodup
          rw [hbd', List.map_append, List.map_cons, List.nodup_append] at hn
          have := (List.nodup_cons.1 hn.2.1).1
          exact fun e => this (e ▸ List.mem_map_of_mem hc'))
    refine ⟨inst', h1, ?_⟩
    rw [← h2]
    simp only [List.map_cons, List.cons_append, readLoop, extracted_fst]
    rw [if_neg (title_ne h hc)]
    simp only [hso, bind, Except.bind]

/-- An object which fits in tables is read from its Excel file as it was written. -/
theorem read_write (h : Tabular E o) : read E (write E o).stored = .ok o := by
  obtain ⟨k, m, hmain⟩ := main_ok h
  have e : (write E o).stored = (mainSheet E (breakdown E o "") o o.nameOf).stored ::
      (breakdown E o "").map fun cl => (sheetOf E (breakdown E o "") cl).stored := by
    simp only [Book.stored, write, List.map_cons, List.map_map]
    rfl
  have hpw : processWorkbook E (write E o).stored = .ok (("Object " ++ o.className, ⟨o.cls, (headerOf o).map some ++ List.replicate k none,
      [gots E (breakdown E o "") o ++ List.replicate m (.cell .none)]⟩) :: (breakdown E o "").map (extracted E (breakdown E o ""))) := by
    rw [e]
    simp only [processWorkbook, List.mapM_cons, hmain, bind, Except.bind, pure, Except.pure]
    rw [mapM_ok (f := extractSheet E) (fun cl hc => extractSheet_ok h hc)]
  obtain ⟨inst', h1, h2⟩ := readLoop_ok h [("Object " ++ o.className, ⟨o.cls, (headerOf o).map some ++ List.replicate k none,
      [gots E (breakdown E o "") o ++ List.replicate m (.cell .none)]⟩)] (breakdown E o "").reverse [] [] (by simp) (by intro cl hc; cases hc)
  have hsr := singleRow_ok h (fun cl hc => hc) h1 (.refl o) h.obj h.root k m
  have ht : (mainSheet E (breakdown E o "") o o.nameOf).stored.title = "Object " ++ o.className := rfl
  have : ∀ b : Book, b = (mainSheet E (breakdown E o "") o o.nameOf).stored ::
      (breakdown E o "").map (fun cl => (sheetOf E (breakdown E o "") cl).stored) → b = (write E o).stored → read E b = .ok o := by
    intro b hb hb'
    unfold read
    rw [hb]
    simp only
    rw [← hb, hb', hpw]
    simp only [bind, Except.bind, ht, List.reverse_cons, ← List.map_reverse, h2]
    simp only [readLoop, if_true, hsr, bind, Except.bind, get_set]
  exact this _ e rfl

end DC.Xl
