import Verif.Data.Features
import Verif.Util.PyList
/-
C180: the vector features of a class, and the vector of an object.
-/
namespace DC.Feat

/-! ### Specification -/

/-- A number: a boolean, an integer, a float or a measure. -/
def Num (v : V) : Prop := (∃ b, v = .bool b) ∨ (∃ i, v = .int i) ∨ (∃ q, v = .flt q) ∨ ∃ c q, v = .measure c q

/-- `f` is the name of a number held by the class or by one of its ancestors, which neither begins nor ends with two underscores, or the name
of a parameter of the constructor annotated with a class of numbers (`float`, `int`, `bool`, `complex` or a class deriving from one of them),
other than the four reserved names. -/
def Numeric (K : Klass) (f : String) : Prop :=
  (∃ v, (f, v) ∈ K.members ∧ Num v ∧ (∀ t, f.toList ≠ '_' :: '_' :: t) ∧ ∀ t, f.toList ≠ t ++ ['_', '_']) ∨
  (∃ mro, (f, Ann.cls mro) ∈ K.params ∧ ("float" ∈ mro ∨ "int" ∈ mro ∨ "bool" ∈ mro ∨ "complex" ∈ mro)) ∧
    f ≠ "self" ∧ f ≠ "cls" ∧ f ≠ "progress_callback" ∧ f ≠ "return"

/-- What is read on an object under a name: the value of a property of its class; else of the attribute of the object; else of its class. -/
def Reads (K : Klass) (o : Inst) (f : String) : Option V :=
  if f ∈ K.properties ∧ (o.props.lookup f).isSome then o.props.lookup f
  else if (o.attrs.lookup f).isSome then o.attrs.lookup f
  else K.members.lookup f

/-- A name made of no capital letter, no slash and which begins with no `#`. -/
def LowName (f : String) : Prop := f ≠ "" ∧ '/' ∉ f.toList ∧ (∀ c ∈ f.toList, c.toLower = c) ∧ ∀ t, f.toList ≠ '#' :: t

/-! ### Lemmas -/

theorem isNumber_iff (v : V) : isNumber v = true ↔ Num v := by
  cases v <;> simp [isNumber, Num]

theorem plainName_iff (s : String) : plainName s = true ↔ (∀ t, s.toList ≠ '_' :: '_' :: t) ∧ ∀ t, s.toList ≠ t ++ ['_', '_'] := by
  simp only [plainName, Bool.and_eq_true, Bool.not_eq_true', ← Bool.not_eq_true, List.isPrefixOf_iff_prefix]
  constructor
  · rintro ⟨h1, h2⟩
    refine ⟨fun t e => h1 ⟨t, by rw [e]; rfl⟩, fun t e => h2 ⟨t.reverse, ?_⟩⟩
    rw [e, List.reverse_append]
    rfl
  · rintro ⟨h1, h2⟩
    refine ⟨fun ⟨t, e⟩ => h1 t (by rw [← e]; rfl), fun ⟨t, e⟩ => h2 t.reverse ?_⟩
    have := congrArg List.reverse e
    rw [List.reverse_reverse, List.reverse_append] at this
    exact this.symm

theorem mem_attributeNames (K : Klass) (f : String) : f ∈ attributeNames K ↔ Numeric K f := by
  simp only [attributeNames, List.mem_append, List.mem_map, List.mem_filter, Bool.and_eq_true, Numeric, plainName_iff, isNumber_iff]
  refine or_congr ?_ ?_
  · constructor
    · rintro ⟨⟨f, v⟩, ⟨hm, ⟨h1, h2⟩, hn⟩, rfl⟩
      exact ⟨v, hm, hn, h1, h2⟩
    · rintro ⟨v, hm, hn, h1, h2⟩
      exact ⟨(f, v), ⟨hm, ⟨h1, h2⟩, hn⟩, rfl⟩
  · have hr : (!reserved.contains f) = true ↔ f ≠ "self" ∧ f ≠ "cls" ∧ f ≠ "progress_callback" ∧ f ≠ "return" := by
      simp [reserved]
    rw [hr]
    refine and_congr ?_ Iff.rfl
    constructor
    · rintro ⟨⟨f, a⟩, ⟨hm, hn⟩, rfl⟩
      cases a with
      | notClass => simp [numericAnn] at hn
      | cls mro =>
        refine ⟨mro, hm, ?_⟩
        simpa [numericAnn, numericTypes] using hn
    · rintro ⟨mro, hm, hn⟩
      refine ⟨(f, .cls mro), ⟨hm, ?_⟩, rfl⟩
      simpa [numericAnn, numericTypes] using hn

theorem nodup_eraseDups : ∀ (n : Nat) (l : List String), l.length ≤ n → l.eraseDups.Nodup
  | _, [], _ => by simp
  | 0, _ :: _, h => by simp at h
  | n + 1, a :: l, h => by
    rw [List.eraseDups_cons]
    refine List.nodup_cons.2 ⟨?_, nodup_eraseDups n _ ?_⟩
    · rw [List.mem_eraseDups, List.mem_filter]
      simp
    · exact Nat.le_trans (List.length_filter_le _ _) (by simpa using h)

theorem lookup_map_str (l : List (String × V)) (f : String) : (l.map fun p => (Key.str p.1, p.2)).lookup (Key.str f) = l.lookup f := by
  induction l with
  | nil => rfl
  | cons p l ih =>
    obtain ⟨g, v⟩ := p
    simp only [List.map_cons, List.lookup_cons, ih]
    by_cases h : f = g
    · subst h; simp
    · have h1 : (f == g) = false := by simpa using h
      have h2 : (Key.str f == Key.str g) = false := by simpa using h
      rw [h1, h2]

theorem lookup_append_feat (l l' : List (String × V)) (f : String) : (l ++ l').lookup f = (l.lookup f <|> l'.lookup f) := by
  induction l with
  | nil => cases h : l'.lookup f <;> simp [h]
  | cons p l ih =>
    obtain ⟨g, v⟩ := p
    simp only [List.cons_append, List.lookup_cons]
    by_cases h : f = g
    · subst h; simp
    · have h1 : (f == g) = false := by simpa using h
      rw [h1, ih]

theorem lookup_filter_feat (l : List (String × V)) (q : String → Bool) (f : String) :
    (l.filter fun p => q p.1).lookup f = if q f then l.lookup f else none := by
  induction l with
  | nil => simp
  | cons p l ih =>
    obtain ⟨g, v⟩ := p
    rw [List.filter_cons]
    by_cases h : f = g
    · subst h
      by_cases hq : q f = true
      · simp [hq]
      · simp [hq, ih]
    · have h1 : (f == g) = false := by simpa using h
      by_cases hq : q g = true
      · simp only [hq, if_true, List.lookup_cons, h1, ih]
      · simp only [hq, List.lookup_cons, h1, ih, Bool.false_eq_true, if_false]

theorem view_lookup (K : Klass) (o : Inst) (f : String) :
    ((o.props.filter (fun p => K.properties.contains p.1) ++ o.attrs ++ K.members).map fun p => (Key.str p.1, p.2)).lookup (Key.str f) = Reads K o f := by
  rw [lookup_map_str, lookup_append_feat, lookup_append_feat, lookup_filter_feat o.props (fun s => K.properties.contains s)]
  simp only [Reads, List.contains_iff_mem]
  by_cases hp : f ∈ K.properties
  · cases h1 : o.props.lookup f <;> cases h2 : o.attrs.lookup f <;> simp [hp]
  · cases h2 : o.attrs.lookup f <;> simp [hp]

theorem splitChars_simple : ∀ {cs : List Char}, '/' ∉ cs → splitChars cs = [cs]
  | [], _ => rfl
  | c :: cs, h => by
    have hc : c ≠ '/' := fun e => h (by simp [e])
    have := splitChars_simple (cs := cs) fun e => h (by simp [e])
    simp [splitChars, this, hc]

theorem lower_low {f : String} (h : ∀ c ∈ f.toList, c.toLower = c) : lower f = f := by
  unfold lower
  have : f.toList.map Char.toLower = f.toList := by
    conv_rhs => rw [← List.map_id f.toList]
    exact List.map_congr_left h
  rw [this]
  exact String.ofList_toList

/-- Reading a plain name. -/
theorem getPath_name (fuel : Nat) (K : Klass) (o : Inst) {f : String} (hf : LowName f) :
    getPath fuel true (o.view K) (splitSlash (lower f)) = match Reads K o f with | some v => .ok v | none => .error .attributeError := by
  obtain ⟨h0, hs, hl, hh⟩ := hf
  have e1 : splitSlash (lower f) = [f] := by
    rw [lower_low hl, splitSlash, splitChars_simple hs]
    simp
  have e2 : lstripPath [f] = [f] := by
    have : f.toList.dropWhile (· = '#') = f.toList := by
      cases hc : f.toList with
      | nil => rfl
      | cons c t =>
        have : c ≠ '#' := fun e => hh t (by rw [hc, e])
        simp [this]
    simp [lstripPath, this, h0]
  rw [e1, getPath, e2]
  have hw : ∀ jump : V → Except PyErr (Option (List Loc × V)), jump (o.view K) = .ok none →
      walk jump [] (o.view K) [f] = match Reads K o f with | some v => .ok ([.attr f], v) | none => .error .attributeError := by
    intro jump hj
    simp only [walk, hj, bind, Except.bind, extractSegment]
    have : segLoc (o.view K) f = if (Reads K o f).isSome then .ok (.attr f) else .error .attributeError := by
      simp only [segLoc, Inst.view, view_lookup]
    rw [this]
    cases hr : Reads K o f with
    | none => simp
    | some v =>
      have : childAt (o.view K) (.attr f) = some v := by
        simp only [childAt, Inst.view, view_lookup, hr]
      simp [this]
  have hl : getLoop true (o.view K) fuel [f] = match Reads K o f with | some v => .ok ([.attr f], v) | none => .error .attributeError := by
    cases fuel with
    | zero => exact hw _ rfl
    | succ n => exact hw _ rfl
  rw [hl]
  cases Reads K o f <;> rfl

/-! ### Theorems -/

/-- The features of a class which declares none are its numeric attributes and its numeric parameters, without those of DessiaObject, each
once, whatever the order of sets is; a class which declares features has these features, in this order. -/
theorem C180_exact (base K : Klass) (order : List String → List String) (ho : ∀ l, (order l).Perm l) :
    (K.declared = none → (vectorFeatures order base K).Nodup ∧
      ∀ f, f ∈ vectorFeatures order base K ↔ Numeric K f ∧ ¬ Numeric base f) ∧
    ∀ fs, K.declared = some fs → vectorFeatures order base K = fs := by
  refine ⟨fun hd => ?_, fun fs hd => by simp [vectorFeatures, hd]⟩
  simp only [vectorFeatures, hd]
  refine ⟨(ho _).nodup_iff.2 ((nodup_eraseDups _ _ (Nat.le_refl _)).filter _), fun f => ?_⟩
  rw [(ho _).mem_iff, List.mem_filter, List.mem_eraseDups, mem_attributeNames]
  simp only [Bool.not_eq_true', ← Bool.not_eq_true, List.contains_iff_mem, mem_attributeNames]

/-- When the names of the features have no capital letters, the vector of an object is the list of the values of its features, in the order of
the features, and there is a vector exactly when each feature has a value.
Missing: names with capital letters (`C180_case_violated`, `C180_missing_violated`). -/
theorem C180_vector_partial (fuel : Nat) (base K : Klass) (order : List String → List String) (o : Inst)
    (hf : ∀ f ∈ vectorFeatures order base K, LowName f) (vs : List V) :
    toVector fuel order base K o = .ok vs ↔ List.Forall₂ (fun f v => Reads K o f = some v) (vectorFeatures order base K) vs := by
  rw [toVector, Py.mapM_ok]
  constructor
  · intro h
    generalize hL : vectorFeatures order base K = L at h hf
    clear hL
    induction h with
    | nil => exact .nil
    | @cons f v l r h1 _ ih =>
      refine .cons ?_ (ih fun g hg => hf g (.tail _ hg))
      rw [getPath_name fuel K o (hf f (.head _))] at h1
      cases hr : Reads K o f <;> rw [hr] at h1 <;> simp_all
  · intro h
    generalize hL : vectorFeatures order base K = L at h hf
    clear hL
    induction h with
    | nil => exact .nil
    | @cons f v l r h1 _ ih =>
      refine .cons ?_ (ih fun g hg => hf g (.tail _ hg))
      rw [getPath_name fuel K o (hf f (.head _)), h1]

/-- Whatever two orders the sets take in two runs, the value which stands in the vector at the place of a feature is the same: a dataset, which
reads the vector at the place of each feature, holds the same columns. -/
theorem C180_place (fuel : Nat) (base K : Klass) (order order' : List String → List String) (o : Inst) {vs vs' : List V}
    (h : toVector fuel order base K o = .ok vs) (h' : toVector fuel order' base K o = .ok vs') {i j : Nat} {f : String}
    (hi : (vectorFeatures order base K)[i]? = some f) (hj : (vectorFeatures order' base K)[j]? = some f) :
    vs[i]? = vs'[j]? ∧ (vs[i]?).isSome := by
  have key : ∀ (L : List String) (ws : List V), L.mapM (fun f => getPath fuel true (o.view K) (splitSlash (lower f))) = .ok ws → ∀ n : Nat, L[n]? = some f →
      ∃ w, ws[n]? = some w ∧ getPath fuel true (o.view K) (splitSlash (lower f)) = .ok w := by
    intro L ws hm
    rw [Py.mapM_ok] at hm
    induction hm with
    | nil => simp
    | cons h1 _ ih =>
      intro n hn
      cases n with
      | zero =>
        simp only [List.getElem?_cons_zero, Option.some.injEq] at hn
        subst hn
        exact ⟨_, rfl, h1⟩
      | succ n =>
        simp only [List.getElem?_cons_succ] at hn ⊢
        exact ih n hn
  obtain ⟨w, e1, e2⟩ := key _ _ h i hi
  obtain ⟨w', e1', e2'⟩ := key _ _ h' j hj
  rw [e2] at e2'
  cases e2'
  rw [e1, e1']
  exact ⟨rfl, rfl⟩

/-! ### What does not hold -/

/-- A class with a temperature `T` and a time `t`. -/
def gas : Klass := ⟨[], [], [("T", .cls ["float", "object"]), ("t", .cls ["float", "object"])], none⟩

/-- DessiaObject: a boolean and parameters which are not numbers. -/
def dessiaObject : Klass :=
  ⟨[("_standalone_in_db", .bool false), ("_eq_is_data_eq", .bool true)], [], [("self", .cls ["inspect._empty", "object"]), ("name", .cls ["str", "object"])], none⟩

/-- A feature with a capital letter is read under another name: the vector of a gas holds the time twice and the temperature not at all. -/
theorem C180_case_violated : ∃ o : Inst, Reads gas o "T" = some (.flt 300) ∧ Reads gas o "t" = some (.flt 5) ∧
    vectorFeatures id dessiaObject gas = ["T", "t"] ∧ (toVector 5 id dessiaObject gas o).toOption.map (fun vs => vs.map fun v => match v with | .flt q => some q | _ => none)
      = some [some 5, some 5] :=
  ⟨⟨[("T", .flt 300), ("t", .flt 5)], []⟩, rfl, rfl, by decide +kernel, by decide +kernel⟩

/-- A feature with a capital letter on an object which has nothing under the small letter raises AttributeError, though the feature has a
value. -/
theorem C180_missing_violated : ∃ (K : Klass) (o : Inst), vectorFeatures id dessiaObject K = ["Kp"] ∧ Reads K o "Kp" = some (.flt 2) ∧
    toVector 5 id dessiaObject K o = .error .attributeError :=
  ⟨⟨[], [], [("Kp", .cls ["float", "object"])], none⟩, ⟨[("Kp", .flt 2)], []⟩, by decide +kernel, rfl, by rfl⟩

/-- Two runs of Python may give the features, hence the vectors, of the same class in different orders. -/
theorem C180_order_violated : ∃ (K : Klass) (order order' : List String → List String), (∀ l, (order l).Perm l) ∧ (∀ l, (order' l).Perm l) ∧
    vectorFeatures order dessiaObject K ≠ vectorFeatures order' dessiaObject K :=
  ⟨gas, id, List.reverse, fun l => .refl l, fun l => List.reverse_perm l, by decide +kernel⟩

/-! ### Examples -/

/-- A car: a flag of its class, a constant of its class, a property, parameters with and without numbers. -/
def car : Klass :=
  ⟨[("_standalone_in_db", .bool true), ("_eq_is_data_eq", .bool true), ("wheels", .int 4), ("__big__", .int 7), ("brand", .str "x")], ["ratio"],
    [("self", .cls ["inspect._empty", "object"]), ("weight", .cls ["Mass", "Measure", "float", "object"]), ("doors", .cls ["int", "object"]),
      ("sizes", .notClass), ("name", .cls ["str", "object"])], none⟩

example : vectorFeatures id dessiaObject car = ["wheels", "weight", "doors"] := by decide +kernel

/-- The order of sets turned round. -/
example : vectorFeatures List.reverse dessiaObject car = ["doors", "weight", "wheels"] := by decide +kernel

/-- The names of the features of the car have no capitals. -/
theorem car_low : ∀ f ∈ vectorFeatures id dessiaObject car, LowName f := by
  have : vectorFeatures id dessiaObject car = ["wheels", "weight", "doors"] := by decide +kernel
  rw [this]
  intro f hf
  simp only [List.mem_cons, List.not_mem_nil, or_false] at hf
  rcases hf with rfl | rfl | rfl <;> refine ⟨by decide, by decide, by decide, fun t e => ?_⟩ <;> simp at e

/-- The vector of a car: its class holds its number of wheels. -/
example : toVector 5 id dessiaObject car ⟨[("weight", .flt 900), ("doors", .int 5)], [("ratio", .flt 2)]⟩ = .ok [.int 4, .flt 900, .int 5] := by
  rw [C180_vector_partial 5 dessiaObject car id _ car_low]
  have : vectorFeatures id dessiaObject car = ["wheels", "weight", "doors"] := by decide +kernel
  rw [this]
  exact .cons rfl (.cons rfl (.cons rfl .nil))

end DC.Feat
