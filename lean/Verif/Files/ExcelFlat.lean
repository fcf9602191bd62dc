import Verif.Files.ExcelRound
/-
Objects whose attributes are values, objects of values and lists of such objects, of as many classes, fit in tables.
-/
set_option linter.unusedSectionVars false
namespace DC.Xl

/-- An object whose attributes are all legible.  Used in proofs only (no code). -/
def Plain (E : Setting) (v : Val) : Prop := v.isObj ∧ ∀ a ∈ v.attrs, Legible E a.2

/-- What an attribute may be: a legible value; a plain object, when the name of the attribute is not taken for the title of a container; or a
list of distinct plain objects of a class, which is not empty.  Used in proofs only (no code). -/
def Column (E : Setting) (k : String) (v : Val) : Prop :=
  Legible E v ∨
  (Plain E v ∧ Shown k ∧ ∀ w ∈ ["Dict", "List", "Set", "Tuple"], contains k w = false) ∨
  (∃ x xs, v = .list (x :: xs) ∧ (∀ y ∈ x :: xs, Plain E y ∧ y.className = x.className) ∧ (x :: xs).Nodup)

/-- An attribute is an object of a class of this name, or a list of them.  Used in proofs only (no code). -/
def OfClass (v : Val) (t : String) : Prop := (v.isObj ∧ v.className = t) ∨ ∃ x xs, v = .list (x :: xs) ∧ x.isObj ∧ x.className = t

/-- An object of values, objects of values and lists of objects of values, each of its own class.  Used in proofs only (no code). -/
structure Flat (E : Setting) (o : Val) : Prop where
  obj : o.isObj
  titles : ∀ x, Sub o x → x.isObj → x.className ≠ "Object " ++ o.className
  named : ∀ a ∈ o.attrs, a.1 ≠ ""
  columns : ∀ a ∈ o.attrs, Column E a.1 a.2
  classes : o.attrs.Pairwise fun a b => ∀ t, OfClass a.2 t → ¬ OfClass b.2 t
  same : ∀ x y, Sub o x → Sub o y → x.isObj → (E.same x y = true ↔ x = y)
  rebuilds : ∀ x, Sub o x → x.isObj → Rebuilds E x
  alike : ∀ x y, Sub o x → Sub o y → x.isObj → y.isObj → x.className = y.className → x.cls = y.cls ∧ headerOf x = headerOf y

variable {E : Setting}

theorem merge_nil_right (d : BD) : merge E d [] = d := rfl

theorem putClass_new_key {cr : String × List (Val × String)} {d : BD} (h : cr.1 ∉ d.map (·.1)) : putClass E cr d = d ++ [cr] := by
  induction d with
  | nil => rfl
  | cons cl d ih =>
    obtain ⟨c, l⟩ := cl
    simp only [List.map_cons, List.mem_cons, not_or] at h
    have hne : ¬ c = cr.1 := fun e => h.1 e.symm
    simp only [putClass, if_neg hne, ih h.2, List.cons_append]

theorem merge_nil_left {d : BD} (h : (d.map (·.1)).Nodup) : merge E [] d = d := by
  have : ∀ (acc : BD), (∀ k ∈ d.map (·.1), k ∉ acc.map (·.1)) → d.foldl (fun d cr => putClass E cr d) acc = acc ++ d := by
    induction d with
    | nil => intro acc _; simp
    | cons cl d ih =>
      intro acc ha
      rw [List.map_cons, List.nodup_cons] at h
      simp only [List.foldl_cons]
      rw [putClass_new_key (ha cl.1 (by simp)), ih h.2]
      · simp
      · intro k hk
        rw [List.map_append, List.mem_append, not_or]
        refine ⟨ha k (by simp at hk ⊢; exact .inr hk), ?_⟩
        simp only [List.map_cons, List.map_nil, List.mem_singleton]
        rintro rfl
        exact h.1 hk
  exact this [] (by simp)

theorem items_builtin {l : List Val} (h : ∀ x ∈ l, x.builtin = true) (p : String) : ∀ (i : Nat) (bd : BD), items E l p i bd = bd := by
  induction l with
  | nil => intro i bd; rfl
  | cons x l ih =>
    intro i bd
    simp only [items]
    rw [ih (fun y hy => h y (by simp [hy]))]
    have := h x (by simp)
    cases x <;> first | (simp [Val.builtin] at this; done) | simp [breakdown, merge_nil_right]

theorem breakdown_legible {v : Val} (h : Legible E v) (p : String) : breakdown E v p = [] := by
  cases v with
  | list l =>
    simp only [breakdown]
    exact items_builtin (fun x hx => List.all_eq_true.1 h.1 x hx) _ _ _
  | dict l => exact absurd h (by simp [Legible])
  | obj c n as => exact absurd h (by simp [Legible])
  | _ => simp [breakdown]

theorem attributes_legible {as : List (String × Val)} (h : ∀ a ∈ as, Legible E a.2) (p : String) (n : Nat) : ∀ bd : BD,
    attributes E as p n bd = bd := by
  induction as with
  | nil => intro bd; rfl
  | cons a as ih =>
    intro bd
    obtain ⟨k, v⟩ := a
    simp only [attributes]
    rw [ih (fun b hb => h b (by simp [hb])), breakdown_legible (h (k, v) (by simp)), merge_nil_right]
    simp

theorem breakdown_plain {v : Val} (h : Plain E v) {p : String} (hp : p ≠ "") : breakdown E v p = [(v.className, [(v, p)])] := by
  obtain ⟨c, n, as, rfl⟩ := isObj_iff.1 h.1
  have ha : ∀ a ∈ as, Legible E a.2 := h.2
  simp only [breakdown, attributes_legible ha, if_neg hp, merge_nil_right]
  rfl

theorem putRef_fresh {r : Val × String} {l : List (Val × String)} (h : ∀ e ∈ l, E.same e.1 r.1 = false) : putRef E r l = l ++ [r] := by
  induction l with
  | nil => rfl
  | cons e l ih =>
    obtain ⟨x, q⟩ := e
    have hx := h (x, q) (by simp)
    simp only at hx
    simp only [putRef, hx, Bool.false_eq_true, if_false, ih (fun f hf => h f (by simp [hf])), List.cons_append]

/-- The rows of a list: its objects, with their indices for paths.  Used in proofs only (no code). -/
def listRows (p : String) : Nat → List Val → List (Val × String)
  | _, [] => []
  | i, x :: l => (x, p ++ toString i) :: listRows p (i + 1) l

theorem listRows_fst (p : String) (l : List Val) : ∀ i, (listRows p i l).map (·.1) = l := by
  induction l with
  | nil => intro i; rfl
  | cons x l ih => intro i; simp [listRows, ih]

theorem append_toString_ne (p : String) (i : Nat) : p ++ toString i ≠ "" := by
  intro h
  have := congrArg String.toList h
  simp only [String.toList_append] at this
  exact toString_ne i (String.toList_inj.1 (List.append_eq_nil_iff.1 this).2)

theorem items_plain {c : String} {l : List Val} (p : String) (hl : ∀ y ∈ l, Plain E y ∧ y.className = c)
    (hs : ∀ x ∈ l, ∀ y ∈ l, E.same x y = true ↔ x = y) (hn : l.Nodup) : ∀ (i : Nat) (acc : List (Val × String)),
    (∀ e ∈ acc, ∀ y ∈ l, E.same e.1 y = false) → items E l p i [(c, acc)] = [(c, acc ++ listRows p i l)] := by
  induction l with
  | nil => intro i acc _; simp [items, listRows]
  | cons x l ih =>
    intro i acc ha
    rw [List.nodup_cons] at hn
    have hx := hl x (by simp)
    simp only [items, breakdown_plain hx.1 (append_toString_ne p i), hx.2]
    have : merge E [(c, acc)] [(c, [(x, p ++ toString i)])] = [(c, acc ++ [(x, p ++ toString i)])] := by
      simp only [merge, List.foldl_cons, List.foldl_nil, putClass, if_true]
      rw [putRef_fresh (fun e he => ha e he x (by simp))]
    rw [this, ih (fun y hy => hl y (by simp [hy])) (fun x hx y hy => hs x (by simp [hx]) y (by simp [hy])) hn.2]
    · simp [listRows]
    · intro e he y hy
      rcases List.mem_append.1 he with he | he
      · exact ha e he y (by simp [hy])
      · rw [List.mem_singleton] at he
        subst he
        rw [Bool.eq_false_iff]
        intro h
        have := (hs x (by simp) y (by simp [hy])).1 h
        subst this
        exact hn.1 hy

theorem breakdown_list {x : Val} {xs : List Val} (p : String) (hl : ∀ y ∈ x :: xs, Plain E y ∧ y.className = x.className)
    (hs : ∀ a ∈ x :: xs, ∀ b ∈ x :: xs, E.same a b = true ↔ a = b) (hn : (x :: xs).Nodup) :
    breakdown E (.list (x :: xs)) p = [(x.className, listRows (pref p) 0 (x :: xs))] := by
  simp only [breakdown, items, breakdown_plain (hl x (by simp)).1 (append_toString_ne _ 0)]
  have : merge E [] [(x.className, [(x, pref p ++ toString 0)])] = [(x.className, [(x, pref p ++ toString 0)])] := rfl
  rw [this]
  rw [List.nodup_cons] at hn
  have := items_plain (E := E) (c := x.className) (pref p) (fun y hy => hl y (by simp [hy]))
    (fun a ha b hb => hs a (by simp [ha]) b (by simp [hb])) hn.2 1 [(x, pref p ++ toString 0)] (by
      intro e he y hy
      rw [List.mem_singleton] at he
      subst he
      rw [Bool.eq_false_iff]
      intro h
      have := (hs x (by simp) y (by simp [hy])).1 h
      subst this
      exact hn.1 hy)
  rw [this]
  rfl

/-- The sheet of an attribute.  Used in proofs only (no code). -/
def entry : String × Val → List (String × List (Val × String))
  | (k, .obj c n as) => [(c.name, [(.obj c n as, k)])]
  | (k, .list (x :: xs)) => match x with
    | .obj c n as => [(c.name, listRows (pref k) 0 (.obj c n as :: xs))]
    | _ => []
  | _ => []

theorem entry_eq {k : String} {v : Val} (hk : k ≠ "") (hc : Column E k v) (hs : ∀ x y, Sub v x → Sub v y → x.isObj → (E.same x y = true ↔ x = y)) :
    breakdown E v k = entry (k, v) ∧ (∀ cl ∈ entry (k, v), OfClass v cl.1 ∧ ∀ e ∈ cl.2, Plain E e.1) := by
  rcases hc with hl | ⟨hp, -, -⟩ | ⟨x, xs, rfl, hx, hn⟩
  · rw [breakdown_legible hl]
    cases v with
    | list l =>
      cases l with
      | nil => exact ⟨rfl, by intro cl h; cases h⟩
      | cons x l =>
        have := List.all_eq_true.1 hl.1 x (by simp)
        cases x <;> first | exact ⟨rfl, by intro cl h; cases h⟩ | simp [Val.builtin] at this
    | obj c n as => exact absurd hl (by simp [Legible])
    | _ => exact ⟨rfl, by intro cl h; cases h⟩
  · rw [breakdown_plain hp hk]
    obtain ⟨c, n, as, rfl⟩ := isObj_iff.1 hp.1
    refine ⟨rfl, ?_⟩
    intro cl h
    simp only [entry, List.mem_singleton] at h
    subst h
    refine ⟨.inl ⟨trivial, rfl⟩, ?_⟩
    intro e he
    rw [List.mem_singleton] at he
    subst he
    exact hp
  · have hobj : ∀ y ∈ x :: xs, y.isObj := fun y hy => (hx y hy).1.1
    rw [breakdown_list k hx (fun a ha b hb => hs a b (.item ha (.refl _)) (.item hb (.refl _)) (hobj a ha)) hn]
    obtain ⟨c, n, as, rfl⟩ := isObj_iff.1 (hobj x (by simp))
    refine ⟨rfl, ?_⟩
    intro cl h
    simp only [entry, List.mem_singleton] at h
    subst h
    refine ⟨.inr ⟨_, xs, rfl, trivial, rfl⟩, ?_⟩
    intro e he
    have : e.1 ∈ (listRows (pref k) 0 (Val.obj c n as :: xs)).map (·.1) := List.mem_map_of_mem he
    rw [listRows_fst] at this
    exact (hx _ this).1

theorem entry_length (a : String × Val) : entry a = [] ∨ ∃ cl, entry a = [cl] := by
  unfold entry
  split
  · exact .inr ⟨_, rfl⟩
  · split
    · exact .inr ⟨_, rfl⟩
    · exact .inl rfl
  · exact .inl rfl

theorem attributes_entries (m : Nat) : ∀ (as : List (String × Val)) (bd : BD),
    (∀ a ∈ as, breakdown E a.2 a.1 = entry a ∧ ∀ cl ∈ entry a, OfClass a.2 cl.1) →
    (as.Pairwise fun a b => ∀ t, OfClass a.2 t → ¬ OfClass b.2 t) → (∀ a ∈ as, a.2.pass = m → ∀ cl ∈ bd, ¬ OfClass a.2 cl.1) →
    attributes E as "" m bd = bd ++ (as.filter (·.2.pass = m)).flatMap entry
  | [], bd, _, _, _ => by simp [attributes]
  | (k, v) :: as, bd, h, hp, hb => by
    rw [List.pairwise_cons] at hp
    have hkv := h (k, v) (by simp)
    simp only [attributes, String.empty_append]
    by_cases hv : v.pass = m
    · rw [if_pos hv]
      have hm : merge E bd (breakdown E v k) = bd ++ entry (k, v) := by
        rw [hkv.1]
        rcases entry_length (k, v) with he | ⟨cl, he⟩
        · rw [he, merge_nil_right, List.append_nil]
        · rw [he]
          simp only [merge, List.foldl_cons, List.foldl_nil]
          refine putClass_new_key ?_
          intro hmem
          obtain ⟨cl', hc', e⟩ := List.mem_map.1 hmem
          have := hkv.2 cl (by rw [he]; simp)
          exact hb (k, v) (by simp) hv cl' hc' (by rw [e]; exact this)
      rw [hm, attributes_entries m as _ (fun a ha => h a (by simp [ha])) hp.2]
      · simp [hv]
      · intro a ha hpa cl hcl hcl'
        rcases List.mem_append.1 hcl with hcl | hcl
        · exact hb a (by simp [ha]) hpa cl hcl hcl'
        · exact hp.1 a ha cl.1 (hkv.2 cl hcl) hcl'
    · rw [if_neg hv, attributes_entries m as _ (fun a ha => h a (by simp [ha])) hp.2 (fun a ha => hb a (by simp [ha]))]
      simp [hv]

theorem flat_breakdown {o : Val} (h : Flat E o) :
    ∀ a ∈ o.attrs, ∀ cl, cl ∈ entry a → cl ∈ breakdown E o "" := by
  obtain ⟨c, n, as, rfl⟩ := isObj_iff.1 h.obj
  have hcols : ∀ a ∈ as, Column E a.1 a.2 := h.columns
  have hcls : as.Pairwise fun a b => ∀ t, OfClass a.2 t → ¬ OfClass b.2 t := h.classes
  have hent : ∀ a ∈ as, breakdown E a.2 a.1 = entry a ∧ ∀ cl ∈ entry a, OfClass a.2 cl.1 := by
    intro a ha
    have := entry_eq (E := E) (h.named a ha) (hcols a ha)
      (fun x y hx hy ho => h.same x y (.attr (k := a.1) ha hx) (.attr (k := a.1) ha hy) ho)
    exact ⟨this.1, fun cl hcl => (this.2 cl hcl).1⟩
  have huniq : ∀ a ∈ as, ∀ b ∈ as, ∀ t, OfClass a.2 t → OfClass b.2 t → a = b := by
    intro a ha b hb t h1 h2
    obtain ⟨i, hi⟩ := List.getElem?_of_mem ha
    obtain ⟨j, hj⟩ := List.getElem?_of_mem hb
    obtain ⟨hi, ei⟩ := List.getElem?_eq_some_iff.1 hi
    obtain ⟨hj, ej⟩ := List.getElem?_eq_some_iff.1 hj
    rw [List.pairwise_iff_getElem] at hcls
    rcases Nat.lt_trichotomy i j with hlt | heq | hlt
    · exact absurd h2 (ej ▸ hcls i j hi hj hlt t (ei ▸ h1))
    · subst heq; rw [← ei, ← ej]
    · exact absurd h1 (ei ▸ hcls j i hj hi hlt t (ej ▸ h2))
  have hsrc : ∀ m, ∀ cl ∈ (as.filter (·.2.pass = m)).flatMap entry, ∃ a ∈ as, a.2.pass = m ∧ cl ∈ entry a ∧ OfClass a.2 cl.1 := by
    intro m cl hcl
    obtain ⟨a, ha, hcl⟩ := List.mem_flatMap.1 hcl
    rw [List.mem_filter] at ha
    exact ⟨a, ha.1, by simpa using ha.2, hcl, (hent a ha.1).2 cl hcl⟩
  have e0 := attributes_entries 0 as [] hent hcls (by intro a _ _ cl hcl; cases hcl)
  have e1 := attributes_entries 1 as ([] ++ (as.filter (·.2.pass = 0)).flatMap entry) hent hcls (by
    intro a ha hpa cl hcl hoc
    rw [List.nil_append] at hcl
    obtain ⟨b, hb, hpb, -, hob⟩ := hsrc 0 cl hcl
    have := huniq a ha b hb cl.1 hoc hob
    subst this
    omega)
  have e2 := attributes_entries 2 as ([] ++ (as.filter (·.2.pass = 0)).flatMap entry ++ (as.filter (·.2.pass = 1)).flatMap entry) hent hcls (by
    intro a ha hpa cl hcl hoc
    rw [List.nil_append, List.mem_append] at hcl
    rcases hcl with hcl | hcl
    · obtain ⟨b, hb, hpb, -, hob⟩ := hsrc 0 cl hcl
      have := huniq a ha b hb cl.1 hoc hob
      subst this
      omega
    · obtain ⟨b, hb, hpb, -, hob⟩ := hsrc 1 cl hcl
      have := huniq a ha b hb cl.1 hoc hob
      subst this
      omega)
  have hE : Equality E (Sub (.obj c n as)) := by
    refine ⟨fun x hx ho => (h.same x x hx hx ho).2 rfl, fun x y z hx hy hz hox hoy _ h1 h2 => ?_⟩
    have e1 := (h.same x y hx hy hox).1 h1
    have e2 := (h.same y z hy hz hoy).1 h2
    subst e1 e2
    exact h1
  have hs : ∀ k x, (k, x) ∈ as → ∀ y, Sub x y → Sub (.obj c n as) y := fun k x hx y hy => .attr hx hy
  have i0 := attributes_ok hE as "" 0 [] hs inv_nil
  have i1 := attributes_ok hE as "" 1 _ hs i0.1
  have i2 := attributes_ok hE as "" 2 _ hs i1.1
  have hbd : breakdown E (.obj c n as) "" = attributes E as "" 2 (attributes E as "" 1 (attributes E as "" 0 [])) := by
    simp only [breakdown, if_true]
    exact merge_nil_left i2.1.nodup
  intro a ha cl hcl
  rw [hbd, e0, e1, e2]
  simp only [List.nil_append, List.mem_append, List.mem_flatMap, List.mem_filter, decide_eq_true_eq]
  have : a.2.pass = 0 ∨ a.2.pass = 1 ∨ a.2.pass = 2 := by cases a.2 <;> simp [Val.pass]
  rcases this with hp | hp | hp
  · exact .inl (.inl ⟨a, ⟨ha, hp⟩, hcl⟩)
  · exact .inl (.inr ⟨a, ⟨ha, hp⟩, hcl⟩)
  · exact .inr ⟨a, ⟨ha, hp⟩, hcl⟩

/-- The objects which are listed are below the root: they are plain ones. -/
theorem flat_listed {o : Val} (h : Flat E o) {cl : String × List (Val × String)} (hc : cl ∈ breakdown E o "") {e : Val × String} (he : e ∈ cl.2) :
    Plain E e.1 := by
  obtain ⟨c, n, as, rfl⟩ := isObj_iff.1 h.obj
  have hcols : ∀ a ∈ as, Column E a.1 a.2 := h.columns
  let P : Val → Prop := fun y => ∃ k x, (k, x) ∈ as ∧ Sub x y
  have hP : ∀ y, P y → Sub (.obj c n as) y := fun y ⟨k, x, h1, h2⟩ => .attr h1 h2
  have hE : Equality E P := by
    refine ⟨fun x hx ho => (h.same x x (hP x hx) (hP x hx) ho).2 rfl, fun x y z hx hy hz hox hoy _ h1 h2 => ?_⟩
    have e1 := (h.same x y (hP x hx) (hP y hy) hox).1 h1
    have e2 := (h.same y z (hP y hy) (hP z hz) hoy).1 h2
    subst e1 e2
    exact h1
  have hs : ∀ k x, (k, x) ∈ as → ∀ y, Sub x y → P y := fun k x hx y hy => ⟨k, x, hx, hy⟩
  have i0 := attributes_ok hE as "" 0 [] hs inv_nil
  have i1 := attributes_ok hE as "" 1 _ hs i0.1
  have i2 := attributes_ok hE as "" 2 _ hs i1.1
  have hbd : breakdown E (.obj c n as) "" = attributes E as "" 2 (attributes E as "" 1 (attributes E as "" 0 [])) := by
    simp only [breakdown, if_true]
    exact merge_nil_left i2.1.nodup
  rw [hbd] at hc
  obtain ⟨⟨k, x, hx, hsub⟩, ho, -, -⟩ := i2.1.mem cl hc e he
  generalize e.1 = y at hsub ho
  have legible_none : ∀ {v y : Val}, Legible E v → Sub v y → y.isObj → False := by
    intro v y hl hs ho
    cases hs with
    | refl => cases v <;> simp [Legible, Val.isObj] at hl ho
    | item hx hs =>
      have := List.all_eq_true.1 hl.1 _ hx
      cases hs with
      | refl => cases y <;> simp [Val.isObj, Val.builtin] at ho this
      | item _ _ => simp [Val.builtin] at this
      | entry _ _ => simp [Val.builtin] at this
      | attr _ _ => simp [Val.builtin] at this
    | entry hx hs => simp [Legible] at hl
    | attr hx hs => simp [Legible] at hl
  rcases hcols _ hx with hl | ⟨hp, -, -⟩ | ⟨z, zs, rfl, hz, hn⟩
  · exact (legible_none hl hsub ho).elim
  · cases hsub with
    | refl => exact hp
    | attr ha hs => exact (legible_none (hp.2 (_, _) ha) hs ho).elim
    | item _ _ => exact absurd hp.1 (by simp [Val.isObj])
    | entry _ _ => exact absurd hp.1 (by simp [Val.isObj])
  · cases hsub with
    | refl => exact absurd ho (by simp [Val.isObj])
    | item ha hs =>
      have hp := (hz _ ha).1
      cases hs with
      | refl => exact hp
      | attr ha' hs' => exact (legible_none (hp.2 (_, _) ha') hs' ho).elim
      | item _ _ => exact absurd hp.1 (by simp [Val.isObj])
      | entry _ _ => exact absurd hp.1 (by simp [Val.isObj])

/-- An object of values, objects of values and lists of objects of values fits in tables. -/
theorem tabular_of_flat {o : Val} (h : Flat E o) : Tabular E o := by
  have hmem := flat_breakdown h
  refine ⟨h.obj, h.titles, h.named, h.same, h.rebuilds, h.alike, ?_, ?_⟩
  · intro a ha
    have hc := h.columns a ha
    rcases hc with hl | ⟨hp, hk, hw⟩ | ⟨x, xs, hv, hx, hn⟩
    · exact .inl hl
    · refine .inr (.inl ⟨hp.1, a.1, [], ?_, hk, hw⟩)
      refine hmem a ha _ ?_
      obtain ⟨k, v⟩ := a
      simp only at hp ⊢
      obtain ⟨c, n, as, rfl⟩ := isObj_iff.1 hp.1
      exact List.mem_singleton.2 rfl
    · have hobj := (hx x (by simp)).1.1
      obtain ⟨c, n, as, rfl⟩ := isObj_iff.1 hobj
      refine .inr (.inr ⟨_, xs, listRows (pref a.1) 0 (.obj c n as :: xs), hv, rfl, ?_, (listRows_fst _ _ _).symm⟩)
      refine hmem a ha _ ?_
      obtain ⟨k, v⟩ := a
      simp only at hv ⊢
      subst hv
      exact List.mem_singleton.2 rfl
  · intro pre cl post hbd
    refine .inl ?_
    intro e he
    exact (flat_listed h (by rw [hbd]; simp) he).2

end DC.Xl
