import Verif.Values.RecType
import Verif.Values.SerializeProps
/-
Property C207: the type told for a value, and reading with it.
-/
namespace DC

/-! ### Specification -/

/-- `x` is `v` or stands in its sequences, at any depth. -/
inductive InSeqs : V → V → Prop
  | self {v} : InSeqs v v
  | list {l x y} : y ∈ l → InSeqs y x → InSeqs (.list l) x
  | tuple {l x y} : y ∈ l → InSeqs y x → InSeqs (.tuple l) x

/-- The value has no type to be told: a measure, a class, a file or a value of an unknown class. -/
def Untold : V → Prop
  | .measure _ _ | .cls _ | .file _ _ _ | .other _ => True
  | _ => False

/-- `None`, an object, or a sequence. -/
def ObjectLike : V → Prop
  | .none | .obj _ _ | .list _ | .tuple _ => True
  | _ => False

/-- The type told for a value. -/
inductive Told : V → RType → Prop
  | int (i) : Told (.int i) (.name "int")
  | flt (q) : Told (.flt q) (.name "float")
  | bool (b) : Told (.bool b) (.name "boolean")
  | str (s) : Told (.str s) (.name "str")
  | dict (d) : Told (.dict d) (.name "dict")
  | obj (c d) : Told (.obj c d) (.name c)
  | none : Told .none .none
  | list {l ts} : l.length = ts.length → (∀ (i : Nat) x t, l[i]? = some x → ts[i]? = some t → Told x t) → Told (.list l) (.seq ts)
  | tuple {l ts} : l.length = ts.length → (∀ (i : Nat) x t, l[i]? = some x → ts[i]? = some t → Told x t) → Told (.tuple l) (.seq ts)

/-! ### Lemmas -/

mutual
theorem recType_ok : (v : V) → (∀ x, InSeqs v x → ¬ Untold x) → ∃ t, recType v = .ok t
  | .int _, _ => ⟨_, rfl⟩
  | .flt _, _ => ⟨_, rfl⟩
  | .bool _, _ => ⟨_, rfl⟩
  | .str _, _ => ⟨_, rfl⟩
  | .dict _, _ => ⟨_, rfl⟩
  | .obj _ _, _ => ⟨_, rfl⟩
  | .none, _ => ⟨_, rfl⟩
  | .measure _ _, h => absurd trivial (h _ .self)
  | .cls _, h => absurd trivial (h _ .self)
  | .file _ _ _, h => absurd trivial (h _ .self)
  | .other _, h => absurd trivial (h _ .self)
  | .list l, h => by
    obtain ⟨ts, e⟩ := recTypeL_ok l fun y hy x hx => h x (.list hy hx)
    exact ⟨.seq ts, by simp [recType, e, bind, Except.bind]⟩
  | .tuple l, h => by
    obtain ⟨ts, e⟩ := recTypeL_ok l fun y hy x hx => h x (.tuple hy hx)
    exact ⟨.seq ts, by simp [recType, e, bind, Except.bind]⟩
theorem recTypeL_ok : (l : List V) → (∀ y ∈ l, ∀ x, InSeqs y x → ¬ Untold x) → ∃ ts, recTypeL l = .ok ts
  | [], _ => ⟨[], rfl⟩
  | v :: l, h => by
    obtain ⟨t, e⟩ := recType_ok v (h v (by simp))
    obtain ⟨ts, e'⟩ := recTypeL_ok l fun y hy => h y (by simp [hy])
    exact ⟨t :: ts, by simp [recTypeL, e, e', bind, Except.bind]⟩
end

theorem recTypeL_mem {l : List V} {ts : List RType} (h : recTypeL l = .ok ts) : ∀ v ∈ l, ∃ t, recType v = .ok t := by
  induction l generalizing ts with
  | nil => intro v hv; simp at hv
  | cons a l ih =>
    obtain ⟨t, h1, h⟩ := bind_ok.1 h
    obtain ⟨ts', h2, -⟩ := bind_ok.1 h
    intro v hv
    rcases List.mem_cons.1 hv with rfl | hv
    · exact ⟨t, h1⟩
    · exact ih h2 v hv

theorem recType_told {v x : V} (h : InSeqs v x) : ∀ {t}, recType v = .ok t → ∃ t', recType x = .ok t' := by
  induction h with
  | self => exact fun h => ⟨_, h⟩
  | list hm _ ih =>
    intro t h
    obtain ⟨ts, h1, -⟩ := bind_ok.1 h
    obtain ⟨t', h2⟩ := recTypeL_mem h1 _ hm
    exact ih h2
  | tuple hm _ ih =>
    intro t h
    obtain ⟨ts, h1, -⟩ := bind_ok.1 h
    obtain ⟨t', h2⟩ := recTypeL_mem h1 _ hm
    exact ih h2

mutual
theorem told_of : (v : V) → ∀ {t}, recType v = .ok t → Told v t
  | .int i, _, h => by cases h; exact .int i
  | .flt q, _, h => by cases h; exact .flt q
  | .bool b, _, h => by cases h; exact .bool b
  | .str s, _, h => by cases h; exact .str s
  | .dict d, _, h => by cases h; exact .dict d
  | .obj c d, _, h => by cases h; exact .obj c d
  | .none, _, h => by cases h; exact .none
  | .measure _ _, _, h => nomatch h
  | .cls _, _, h => nomatch h
  | .file _ _ _, _, h => nomatch h
  | .other _, _, h => nomatch h
  | .list l, _, h => by
    obtain ⟨ts, h1, h⟩ := bind_ok.1 h
    cases h
    obtain ⟨g1, g2⟩ := told_ofL l h1
    exact .list g1 g2
  | .tuple l, _, h => by
    obtain ⟨ts, h1, h⟩ := bind_ok.1 h
    cases h
    obtain ⟨g1, g2⟩ := told_ofL l h1
    exact .tuple g1 g2
theorem told_ofL : (l : List V) → ∀ {ts}, recTypeL l = .ok ts → l.length = ts.length ∧ ∀ (i : Nat) x t, l[i]? = some x → ts[i]? = some t → Told x t
  | [], _, h => by cases h; exact ⟨rfl, fun i x t h => by simp at h⟩
  | v :: l, _, h => by
    obtain ⟨t, h1, h⟩ := bind_ok.1 h
    obtain ⟨ts, h2, h⟩ := bind_ok.1 h
    cases h
    have hv := told_of v h1
    obtain ⟨g1, g2⟩ := told_ofL l h2
    refine ⟨by simp [g1], fun i x t hx ht => ?_⟩
    cases i with
    | zero => simp at hx ht; subst hx; subst ht; exact hv
    | succ i => exact g2 i x t (by simpa using hx) (by simpa using ht)
end

theorem dictUpdate_first {α : Type} (k : Key) (e : List (Key × α)) : ∀ (a : α) (d : List (Key × α)), ∃ w l, dictUpdate ((k, a) :: d) e = (k, w) :: l := by
  induction e with
  | nil => exact fun a d => ⟨a, d, rfl⟩
  | cons kv e ih =>
    intro a d
    have h : dictUpdate ((k, a) :: d) (kv :: e) = dictUpdate (dictSet ((k, a) :: d) kv.1 kv.2) e := rfl
    rw [h, dictSet]
    split
    · exact ih _ _
    · exact ih _ _

mutual
theorem withType_aux (W : World) (fuel : Nat) : (v : V) → WF v → Readable W v → (∀ x, InSeqs v x → ObjectLike x) →
    (∀ c d, InSeqs v (.obj c d) → c ∉ typeStrings) → ∃ t s, recType v = .ok t ∧ serialize W v = .ok s ∧ deserWithType W fuel t s = .ok (some (reread W.toEnv false v))
  | .obj c a, hv, hr, _, hn => by
    obtain ⟨d, a', h1, h2, h3, -⟩ := C12_roundtrip_partial W fuel c a hv hr
    have hk := (hr.objs c a .self).1
    have hd : ∃ w, d.lookup (.str "object_class") = some w := by
      rw [serialize, bind_ok] at h1
      obtain ⟨r, _, h⟩ := h1
      simp only [Except.ok.injEq, V.dict.injEq] at h
      obtain ⟨w, l, e⟩ := dictUpdate_first (.str "object_class") r (.str c) []
      rw [← h, e]
      exact ⟨w, by simp⟩
    obtain ⟨w, hw⟩ := hd
    refine ⟨_, _, rfl, h1, ?_⟩
    have : typeStrings.contains c = false := by simpa using hn c a .self
    simp only [deserWithType, this, Bool.false_eq_true, if_false, hk, classRead, hw]
    rw [h2, h3]
  | .none, _, _, _, _ => ⟨_, _, rfl, rfl, rfl⟩
  | .list l, hv, hr, ho, hn => by
    obtain ⟨ts, ss, h1, h2, h3⟩ := withTypes_aux W fuel l (by simpa only [WF] using hv) (fun x hx => hr.occurs (.list hx .self))
      (fun y hy x hx => ho x (.list hy hx)) (fun y hy c d hx => hn c d (.list hy hx))
    refine ⟨.seq ts, .list ss, by simp [recType, h1, bind, Except.bind], by simp [serialize, h2, bind, Except.bind], ?_⟩
    simp [deserWithType, h3, bind, Except.bind, reread]
  | .tuple l, hv, hr, ho, hn => by
    obtain ⟨ts, ss, h1, h2, h3⟩ := withTypes_aux W fuel l (by simpa only [WF] using hv) (fun x hx => hr.occurs (.tuple hx .self))
      (fun y hy x hx => ho x (.tuple hy hx)) (fun y hy c d hx => hn c d (.tuple hy hx))
    refine ⟨.seq ts, .list ss, by simp [recType, h1, bind, Except.bind], by simp [serialize, h2, bind, Except.bind], ?_⟩
    simp [deserWithType, h3, bind, Except.bind, reread]
  | .int _, _, _, h, _ => (h _ .self).elim
  | .flt _, _, _, h, _ => (h _ .self).elim
  | .bool _, _, _, h, _ => (h _ .self).elim
  | .str _, _, _, h, _ => (h _ .self).elim
  | .dict _, _, _, h, _ => (h _ .self).elim
  | .measure _ _, _, _, h, _ => (h _ .self).elim
  | .cls _, _, _, h, _ => (h _ .self).elim
  | .file _ _ _, _, _, h, _ => (h _ .self).elim
  | .other _, _, _, h, _ => (h _ .self).elim
theorem withTypes_aux (W : World) (fuel : Nat) : (l : List V) → WFL l → (∀ x ∈ l, Readable W x) → (∀ y ∈ l, ∀ x, InSeqs y x → ObjectLike x) →
    (∀ y ∈ l, ∀ c d, InSeqs y (.obj c d) → c ∉ typeStrings) →
    ∃ ts ss, recTypeL l = .ok ts ∧ serializeL W l = .ok ss ∧ deserWithTypes W fuel ts ss = .ok (some (rereadL W.toEnv l))
  | [], _, _, _, _ => ⟨[], [], rfl, by rw [serializeL], rfl⟩
  | v :: l, hv, hr, ho, hn => by
    simp only [WFL] at hv
    obtain ⟨t, s, h1, h2, h3⟩ := withType_aux W fuel v hv.1 (hr v (by simp)) (ho v (by simp)) (hn v (by simp))
    obtain ⟨ts, ss, g1, g2, g3⟩ := withTypes_aux W fuel l hv.2 (fun x hx => hr x (by simp [hx])) (fun y hy => ho y (by simp [hy])) (fun y hy => hn y (by simp [hy]))
    refine ⟨t :: ts, s :: ss, by simp [recTypeL, h1, g1, bind, Except.bind], by simp [serializeL, h2, g2, bind, Except.bind], ?_⟩
    simp [deserWithTypes, h3, g3, bind, Except.bind, rereadL]
end

/-! ### C207 -/

/-- C207, what holds: a type is told exactly for the values whose sequences hold, at any depth, no measure, class, file nor value of an
unknown class.  Missing: these values, see the `_violated` theorem. -/
theorem C207_told_partial (v : V) : (∃ t, recType v = .ok t) ↔ ∀ x, InSeqs v x → ¬ Untold x := by
  refine ⟨?_, recType_ok v⟩
  rintro ⟨t, h⟩ x hx hu
  obtain ⟨t', h'⟩ := recType_told hx h
  cases x <;> simp [Untold] at hu <;> cases h'

/-- C207 is violated by the code: a measure is a number which can be written, and no type is told for it; nor for a class, nor for a file. -/
theorem C207_told_violated (W : World) (c : String) (q : Rat) : recType (.measure c q) = .error .keyError ∧ ∃ s, serialize W (.measure c q) = .ok s :=
  ⟨rfl, _, by rw [serialize]⟩

/-- C207.  The type told for a sequence is the list of those of its elements, that of an object its class, that of any other value its kind. -/
theorem C207_names {v : V} {t : RType} (h : recType v = .ok t) : Told v t := told_of v h

/-- C207, what holds: `None`, objects, and their sequences at any depth, are read back with the type told for them, sequences becoming lists;
the value read is equal to the original one.  Missing: numbers, strings and dicts, see the `_violated` theorem. -/
theorem C207_read_partial (W : World) (fuel : Nat) {v : V} (hv : WF v) (hr : Readable W v) (ho : ∀ x, InSeqs v x → ObjectLike x)
    (hn : ∀ c d, InSeqs v (.obj c d) → c ∉ ["int", "float", "boolean", "str", "list", "tuple", "dict"]) :
    ∃ t s w, recType v = .ok t ∧ serialize W v = .ok s ∧ deserWithType W fuel t s = .ok (some w) ∧ w = reread W.toEnv false v ∧
      dataEq W.toEnv v w = true ∧ dataEq W.toEnv w v = true := by
  obtain ⟨t, s, h1, h2, h3⟩ := withType_aux W fuel v hv hr ho hn
  have hs := same_reread W.toEnv false _ hv
  have hc : Same W.toEnv Close _ _ := hs.mono (fun a b hab => hab ▸ Close.refl _)
  exact ⟨t, s, _, h1, h2, h3, rfl, same_imp_dataEq hc hv, same_imp_dataEq (hc.symm (fun _ _ => Close.symm)) (WF_reread W.toEnv false _ hv)⟩

/-- C207 is violated by the code: no number, string nor dict is read with the type told for it. -/
theorem C207_read_violated (W : World) (fuel : Nat) {v : V} (h : ¬ ObjectLike v) {t : RType} (ht : recType v = .ok t) (s : V) :
    deserWithType W fuel t s = .error .valueError := by
  cases v <;> simp [ObjectLike] at h <;> cases ht <;> simp [deserWithType, typeStrings]

/-- C207.  A document which does not say its class is read, with a class as type, as the document which says that class. -/
theorem C207_unnamed (W : World) (fuel : Nat) (c : String) (d : List (Key × V)) (hd : Key.str "object_class" ∉ d.map (·.1)) :
    deserWithType W fuel (.name c) (.dict d) = deserWithType W fuel (.name c) (.dict ((.str "object_class", .str c) :: d)) := by
  have h : d.lookup (.str "object_class") = none := by
    rw [List.lookup_eq_none_iff]
    intro p hp
    rw [bne_iff_ne]
    rintro h
    exact hd (List.mem_map.2 ⟨p, hp, h.symm⟩)
  simp [deserWithType, classRead, h]

/-! ### Examples -/

/-- A document without class meets the hypothesis of `C207_unnamed`. -/
example : Key.str "object_class" ∉ ([(.str "name", .str "a")] : List (Key × V)).map (·.1) := by decide

/-- A list with an object, `None` and a tuple of objects meets the hypotheses of `C207_read_partial`. -/
example : ∃ v : V, (∃ l, v = .list [serDemo, .none, .tuple l] ∧ l = [serDemo]) ∧ WF v ∧ Readable serWorld v ∧ (∀ x, InSeqs v x → ObjectLike x) ∧
    ∀ c d, InSeqs v (.obj c d) → c ∉ ["int", "float", "boolean", "str", "list", "tuple", "dict"] := by
  obtain ⟨h1, h2, -⟩ := serDemo_ok
  have occ : ∀ x, Occurs (.list [serDemo, .none, .tuple [serDemo]]) x → Occurs serDemo x ∨ x = .none ∨
      x = .tuple [serDemo] ∨ x = .list [serDemo, .none, .tuple [serDemo]] := by
    intro x h
    cases h with
    | self => exact .inr (.inr (.inr rfl))
    | list hm h =>
      simp only [List.mem_cons, List.not_mem_nil, or_false] at hm
      rcases hm with rfl | rfl | rfl
      · exact .inl h
      · cases h; exact .inr (.inl rfl)
      · cases h with
        | self => exact .inr (.inr (.inl rfl))
        | tuple hm h => simp only [List.mem_cons, List.not_mem_nil, or_false] at hm; subst hm; exact .inl h
  have ins : ∀ x, InSeqs (.list [serDemo, .none, .tuple [serDemo]]) x → x = serDemo ∨ x = .none ∨
      x = .tuple [serDemo] ∨ x = .list [serDemo, .none, .tuple [serDemo]] := by
    have hs : ∀ x, InSeqs serDemo x → x = serDemo := by
      intro x h
      cases h
      rfl
    intro x h
    cases h with
    | self => exact .inr (.inr (.inr rfl))
    | list hm h =>
      simp only [List.mem_cons, List.not_mem_nil, or_false] at hm
      rcases hm with rfl | rfl | rfl
      · exact .inl (hs x h)
      · cases h; exact .inr (.inl rfl)
      · cases h with
        | self => exact .inr (.inr (.inl rfl))
        | tuple hm h => simp only [List.mem_cons, List.not_mem_nil, or_false] at hm; subst hm; exact .inl (hs x h)
  refine ⟨_, ⟨_, rfl, rfl⟩, by simp [WF, WFL, h1], ⟨?_, ?_, ?_, ?_, ?_, ?_⟩, ?_, ?_⟩
  · intro i h; rcases occ _ h with h | h | h | h <;> [exact h2.ints i h; cases h; cases h; cases h]
  · intro i h; rcases occ _ h with h | h | h | h <;> [exact h2.strs i h; cases h; cases h; cases h]
  · intro i h; rcases occ _ h with h | h | h | h <;> [exact h2.classes i h; cases h; cases h; cases h]
  · intro i q h; rcases occ _ h with h | h | h | h <;> [exact h2.measures i q h; cases h; cases h; cases h]
  · intro i h; rcases occ _ h with h | h | h | h <;> [exact h2.dicts i h; cases h; cases h; cases h]
  · intro i q h; rcases occ _ h with h | h | h | h <;> [exact h2.objs i q h; cases h; cases h; cases h]
  · intro x h
    rcases ins x h with rfl | rfl | rfl | rfl <;> trivial
  · intro c d h
    rcases ins _ h with h | h | h | h <;> [skip; cases h; cases h; cases h]
    simp only [serDemo, serObj, V.obj.injEq] at h
    rw [h.1]
    decide

/-- A list of a number and an object: its type is told. -/
example : ∃ t, recType (.list [.int 3, .obj "m.P" [], .tuple [.flt 2]]) = .ok t ∧ t = .seq [.name "int", .name "m.P", .seq [.name "float"]] := ⟨_, rfl, rfl⟩

end DC
