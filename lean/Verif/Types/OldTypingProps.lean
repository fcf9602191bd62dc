import Verif.Types.OldTyping
import Verif.Types.AnnotProps
/- Property C172: the former reading of the strings of annotations. -/
namespace DC.Types

/-! ### Specification -/

/-- An importable class with a schema, of a dotted name, or Any. -/
inductive ClassOrAny (W : Names) : Ann → Prop
  | any : ClassOrAny W .any
  | cls {n : List Char} : W.importable n = true → W.supported n = true → FullName n → n ≠ anyName → n ≠ noneName → beforeLast '.' n ≠ some dunderBuiltins →
      n ∉ oldNames → oldBuiltins.lookup n = none → ClassOrAny W (.cls n)

/-- The generic types that can be read: one level of List, Tuple, InstanceOf and Dict on classes, below any number of List, Tuple and Iterator. -/
inductive OldGeneric (W : Names) : Ann → Prop
  | list {a : Ann} : ClassOrAny W a → OldGeneric W (.gen .list [a])
  | tuple {a : Ann} : ClassOrAny W a → OldGeneric W (.gen .tuple [a])
  | instanceOf {a : Ann} : ClassOrAny W a → OldGeneric W (.gen .instanceOf [a])
  | dict {a b : Ann} : ClassOrAny W a → ClassOrAny W b → OldGeneric W (.gen .dict [a, b])
  | deep {g : Gen} {a : Ann} : g ∈ [Gen.list, Gen.tuple, Gen.iterator] → OldGeneric W a → OldGeneric W (.gen g [a])

/-- The types that can be read. -/
def OldReadable (W : Names) (a : Ann) : Prop := (∃ b, a = .builtin b) ∨ a = .type ∨ ClassOrAny W a ∨ OldGeneric W a

/-! ### Proofs -/

theorem splitArgs_plain : ∀ {s : List Char}, ',' ∉ s → splitArgs s = [s]
  | [], _ => rfl
  | [c], _ => rfl
  | c :: d :: s, h => by
    rw [splitArgs, if_neg (fun e => h (by simp [e.1])), splitArgs_plain (s := d :: s) (fun e => h (.tail _ e))]

theorem splitArgs_two : ∀ {s t : List Char}, ',' ∉ s → ',' ∉ t → splitArgs (s ++ ',' :: ' ' :: t) = [s, t]
  | [], t, _, ht => by rw [List.nil_append, splitArgs, if_pos ⟨rfl, rfl⟩, splitArgs_plain ht]
  | c :: s, t, hs, ht => by
    have ih := splitArgs_two (s := s) (t := t) (fun e => hs (.tail _ e)) ht
    have hc : c ≠ ',' := fun e => hs (by simp [e])
    cases s with
    | nil => rw [List.cons_append, List.nil_append, splitArgs, if_neg (fun e => hc e.1), ← List.nil_append (',' :: ' ' :: t), ih]
    | cons d s =>
      rw [List.cons_append, List.cons_append, splitArgs, if_neg (fun e => hc e.1), ← List.cons_append, ih]

theorem class_string {W : Names} {a : Ann} (h : ClassOrAny W a) : ',' ∉ ser true a ∧ '[' ∉ ser true a ∧ ser true a ≠ [] ∧ fromArg W (ser true a) = .ok a := by
  cases h with
  | any => refine ⟨by decide, by decide, by decide, ?_⟩; rfl
  | @cls n h1 h2 h3 h4 h5 h6 h7 h8 =>
    have hn : ser true (.cls n) = n := by rw [ser]
    rw [hn]
    have hne : n ≠ [] := fun e => by have := h3.1; simp [e] at this
    refine ⟨fun e => h3.2.2 _ e (by decide), fun e => h3.2.2 _ e (by decide), hne, ?_⟩
    rw [fromArg, if_neg hne, if_neg h6, resolve, if_neg (fun e => e h3.1), if_neg h4, if_neg h5, if_pos h1]

theorem name_plain (g : Gen) : '[' ∉ g.name := by cases g <;> decide

theorem take_name (g : Gen) (full : List Char) : (g.name ++ '[' :: (full ++ [']'])).takeWhile (· ≠ '[') = g.name ∧
    ((g.name ++ '[' :: (full ++ [']'])).dropWhile (· ≠ '[')).drop 1 = full ++ [']'] := by
  have h : ∀ c ∈ g.name, (decide (c ≠ '[')) = true := fun c hc => by
    simp only [ne_eq, decide_eq_true_eq]
    exact fun e => name_plain g (e ▸ hc)
  rw [List.takeWhile_append_of_pos h, List.dropWhile_append_of_pos h]
  simp

/-- A string with brackets is not one of the names. -/
theorem bracket_names {s : List Char} (h : '[' ∈ s) : oldBuiltins.lookup s = none ∧ s ∉ oldNames ∧ s ≠ typeName := by
  have key : ∀ t : List Char, '[' ∉ t → s ≠ t := fun t ht e => ht (e ▸ h)
  refine ⟨?_, ?_, key _ (by decide)⟩
  · rw [List.lookup_eq_none_iff]
    intro p hp
    have : '[' ∉ p.1 := by revert p; decide
    simpa using key p.1 this
  · intro hs
    have : ∀ t ∈ oldNames, '[' ∉ t := by decide
    exact this s hs h

theorem oldN_bracket {W : Names} {n : Nat} (g : Gen) (full : List Char) : oldN W (n + 1) (g.name ++ '[' :: (full ++ [']'])) =
    if '[' ∈ full then
      match oldGenerics.lookup g.name with
      | none => .error .keyError
      | some g => match oldN W n full with
        | .error e => .error e
        | .ok t => oldSubscript g t
    else oldFlat W (g.name ++ '[' :: (full ++ [']'])) g.name full := by
  have hb : '[' ∈ g.name ++ '[' :: (full ++ [']']) := by simp
  obtain ⟨h1, h2, h3⟩ := bracket_names hb
  obtain ⟨h4, h5⟩ := take_name g full
  rw [oldN]
  simp only [h1, if_neg h2, if_neg h3, if_pos hb, h4, h5, beforeLast_snoc, Option.getD_some]
  split <;> rfl

theorem ser_one (g : Gen) (a : Ann) : ser true (.gen g [a]) = g.name ++ '[' :: (ser true a ++ [']']) := by
  rw [ser, serAll, serAll]
  simp [Str.join]

theorem ser_two (g : Gen) (a b : Ann) : ser true (.gen g [a, b]) = g.name ++ '[' :: ((ser true a ++ ',' :: ' ' :: ser true b) ++ [']']) := by
  rw [ser, serAll, serAll, serAll]
  simp [Str.join, sep]

theorem generic_read {W : Names} {a : Ann} (h : OldGeneric W a) : '[' ∈ ser true a ∧ ∀ n, (ser true a).length ≤ n → oldN W n (ser true a) = .ok a := by
  induction h with
  | @list a ha =>
    obtain ⟨h1, h2, h3, h4⟩ := class_string ha
    rw [ser_one]
    refine ⟨by simp, fun n hn => ?_⟩
    obtain ⟨n, rfl⟩ : ∃ m, n = m + 1 := ⟨n - 1, by simp at hn; omega⟩
    rw [oldN_bracket, if_neg h2, oldFlat, if_pos rfl]
    simp only [h4]
  | @tuple a ha =>
    obtain ⟨h1, h2, h3, h4⟩ := class_string ha
    rw [ser_one]
    refine ⟨by simp, fun n hn => ?_⟩
    obtain ⟨n, rfl⟩ : ∃ m, n = m + 1 := ⟨n - 1, by simp at hn; omega⟩
    rw [oldN_bracket, if_neg h2, oldFlat, if_neg (by decide), if_pos rfl, oldTuple, splitArgs_plain h1]
    simp only [h4]
  | @instanceOf a ha =>
    obtain ⟨h1, h2, h3, h4⟩ := class_string ha
    rw [ser_one]
    refine ⟨by simp, fun n hn => ?_⟩
    obtain ⟨n, rfl⟩ : ∃ m, n = m + 1 := ⟨n - 1, by simp at hn; omega⟩
    rw [oldN_bracket, if_neg h2, oldFlat, if_neg (by decide), if_neg (by decide), if_neg (by decide), if_pos rfl]
    simp only [h4]
  | @dict a b ha hb =>
    obtain ⟨h1, h2, h3, h4⟩ := class_string ha
    obtain ⟨k1, k2, k3, k4⟩ := class_string hb
    rw [ser_two]
    refine ⟨by simp, fun n hn => ?_⟩
    obtain ⟨n, rfl⟩ : ∃ m, n = m + 1 := ⟨n - 1, by simp at hn; omega⟩
    rw [oldN_bracket, if_neg (by simp [h2, k2]), oldFlat, if_neg (by decide), if_neg (by decide), if_pos rfl, splitArgs_two h1 k1]
    simp only [h4, k4]
  | @deep g a hg _ ih =>
    obtain ⟨h1, h2⟩ := ih
    rw [ser_one]
    refine ⟨by simp, fun n hn => ?_⟩
    obtain ⟨n, rfl⟩ : ∃ m, n = m + 1 := ⟨n - 1, by simp at hn; omega⟩
    have hn' : (ser true a).length ≤ n := by
      simp only [List.length_append, List.length_cons, List.length_nil] at hn
      omega
    rw [oldN_bracket, if_pos h1, h2 n hn']
    simp only [List.mem_cons, List.not_mem_nil, or_false] at hg
    rcases hg with rfl | rfl | rfl <;> rfl

theorem readable_schema {W : Names} {a : Ann} (h : OldReadable W a) : noSchema W a = false := by
  have hc : ∀ {a}, ClassOrAny W a → noSchema W a = false := by
    intro a h
    cases h with
    | any => simp [noSchema]
    | cls h1 h2 => simp [noSchema, h2]
  rcases h with ⟨b, rfl⟩ | rfl | h | h
  · simp [noSchema]
  · simp [noSchema]
  · exact hc h
  · induction h with
    | list h => simp [noSchema, noSchemaAll, hc h]
    | tuple h => simp [noSchema, noSchemaAll, hc h]
    | instanceOf h => simp [noSchema, noSchemaAll, hc h]
    | dict h h' => simp [noSchema, noSchemaAll, hc h, hc h']
    | @deep g a hg _ ih =>
      simp only [List.mem_cons, List.not_mem_nil, or_false] at hg
      rcases hg with rfl | rfl | rfl <;> simp [noSchema, noSchemaAll, ih]

/-- **C172** (part): a builtin, `Type`, a class, `Any`, a list, a tuple of one type, a dictionary or an instance of classes, and any depth of lists, tuples of one type and
iterators of these, is written as a string which is read back as this type.
Missing for the full property: builtins as arguments (`C172_builtin_violated`), tuples of several types (`C172_tuple_violated`, `C172_variadic_violated`), unions and dictionaries of
generic types (`C172_union_violated`, `C172_dict_violated`). -/
theorem C172_partial {W : Names} {a : Ann} (h : OldReadable W a) : ∃ s, serialize W a = .ok s ∧ oldDeserialize W s = .ok a := by
  refine ⟨ser true a, by rw [serialize, readable_schema h]; rfl, ?_⟩
  unfold oldDeserialize
  rcases h with ⟨b, rfl⟩ | rfl | h | h
  · cases b <;> rfl
  · rfl
  · cases h with
    | any => rfl
    | @cls n h1 h2 h3 h4 h5 h6 h7 h8 =>
      have hn : ser true (.cls n) = n := by rw [ser]
      have hb : '[' ∉ n := fun e => h3.2.2 _ e (by decide)
      have hd : ∀ t : List Char, '.' ∉ t → n ≠ t := fun t ht e => ht (e ▸ h3.1)
      rw [hn, oldN]
      simp only [h8, if_neg h7, if_neg (hd typeName (by decide)), if_neg hb]
      rw [oldFlat, if_neg (hd _ (by decide)), if_neg (hd _ (by decide)), if_neg (hd _ (by decide)), if_neg (hd _ (by decide)), resolve,
        if_neg (fun e => e h3.1), if_neg h4, if_neg h5, if_pos h1]
  · exact (generic_read h).2 _ (by omega)

/-- No list of a builtin type can be read back. -/
theorem C172_builtin_violated (W : Names) (b : Builtin) : ∃ s, serialize W (.gen .list [.builtin b]) = .ok s ∧ oldDeserialize W s = .error .valueError :=
  ⟨_, rfl, by cases b <;> rfl⟩

/-- A pair of classes of the same type is read as a tuple of any length. -/
theorem C172_tuple_violated : ∃ s, serialize oneClass (.gen .tuple [.cls "pkg.Car".toList, .cls "pkg.Car".toList]) = .ok s ∧
    oldDeserialize oneClass s = .ok (.variadic (.cls "pkg.Car".toList)) := ⟨_, rfl, rfl⟩

/-- A tuple of any length cannot be read back. -/
theorem C172_variadic_violated : ∃ s, serialize oneClass (.variadic (.cls "pkg.Car".toList)) = .ok s ∧
    oldDeserialize oneClass s = .error .typeError := ⟨_, rfl, rfl⟩

/-- A list of a union cannot be read back, nor can the union. -/
theorem C172_union_violated : ∃ s t, serialize oneClass (.gen .union [.cls "pkg.Car".toList, .any]) = .ok s ∧
    oldDeserialize oneClass s = .error .importError ∧ serialize oneClass (.gen .list [.gen .union [.cls "pkg.Car".toList, .any]]) = .ok t ∧
    oldDeserialize oneClass t = .error .importError := ⟨_, _, rfl, rfl, rfl, rfl⟩

/-- A dictionary of lists cannot be read back. -/
theorem C172_dict_violated : ∃ s, serialize oneClass (.gen .dict [.any, .gen .list [.cls "pkg.Car".toList]]) = .ok s ∧
    oldDeserialize oneClass s = .error .importError := ⟨_, rfl, rfl⟩

/-- **C172** The strings of builtins, written with or without their module, and of the files and methods of dessia_common are read as these types. -/
theorem C172_names (W : Names) :
    oldDeserialize W "float".toList = .ok (.builtin .float) ∧ oldDeserialize W "builtins.float".toList = .ok (.builtin .float) ∧
    oldDeserialize W "int".toList = .ok (.builtin .int) ∧ oldDeserialize W "builtins.int".toList = .ok (.builtin .int) ∧
    oldDeserialize W "str".toList = .ok (.builtin .str) ∧ oldDeserialize W "builtins.str".toList = .ok (.builtin .str) ∧
    oldDeserialize W "bool".toList = .ok (.builtin .bool) ∧ oldDeserialize W "builtins.bool".toList = .ok (.builtin .bool) ∧
    ∀ n ∈ ["dessia_common.files.StringFile", "dessia_common.files.BinaryFile", "dessia_common.typings.MethodType", "dessia_common.typings.ClassMethodType"],
      oldDeserialize W n.toList = .ok (.cls n.toList) := by
  refine ⟨rfl, rfl, rfl, rfl, rfl, rfl, rfl, rfl, fun n hn => ?_⟩
  simp only [List.mem_cons, List.not_mem_nil, or_false] at hn
  rcases hn with rfl | rfl | rfl | rfl <;> rfl

/-- **C172** A dictionary of one generic type is refused with a TypeError. -/
theorem C172_dict_one (W : Names) : oldDeserialize W "Dict[List[typing.Any]]".toList = .error .typeError := rfl

theorem beforeLast_absent {c : Char} : ∀ {s : List Char}, c ∉ s → beforeLast c s = none
  | [], _ => rfl
  | d :: s, h => by
    have hd : d ≠ c := fun e => h (by simp [e])
    rw [beforeLast, beforeLast_absent (fun hm => h (.tail _ hm))]
    simp [hd]

theorem beforeLast_at {c : Char} {b : List Char} (hb : c ∉ b) : ∀ a : List Char, beforeLast c (a ++ c :: b) = some a
  | [] => by rw [List.nil_append, beforeLast, beforeLast_absent hb]; simp
  | d :: a => by rw [List.cons_append, beforeLast, beforeLast_at hb a]

/-- `List[__builtins__.x]`. -/
def oldListOf (x : List Char) : List Char := "List[__builtins__.".toList ++ x ++ [']']

/-- `builtins.x`. -/
def inBuiltins (x : List Char) : List Char := "builtins.".toList ++ x

/-- `List[__builtins__.`. -/
def oldListHead : List Char := "List[__builtins__.".toList

/-- `builtins.`. -/
def builtinsHead : List Char := "builtins.".toList

/-- `builtins`. -/
def builtinsMod : List Char := "builtins".toList

theorem oldListOf_eq (x : List Char) : oldListOf x = Gen.list.name ++ '[' :: ((dunderBuiltins ++ '.' :: x) ++ [']']) := by
  have h : oldListHead = Gen.list.name ++ '[' :: (dunderBuiltins ++ ['.']) := by decide +kernel
  show oldListHead ++ x ++ [']'] = _
  rw [h]
  simp only [List.append_assoc, List.cons_append, List.nil_append]

theorem inBuiltins_eq (x : List Char) : inBuiltins x = builtinsMod ++ '.' :: x := by
  have h : builtinsHead = builtinsMod ++ ['.'] := by decide +kernel
  show builtinsHead ++ x = _
  rw [h, List.append_assoc, List.singleton_append]

theorem inBuiltins_ne (x : List Char) : '.' ∈ inBuiltins x ∧ inBuiltins x ≠ anyName ∧ inBuiltins x ≠ noneName := by
  have hh : (inBuiltins x).head? = some 'b' := by
    rw [inBuiltins_eq, List.head?_append]
    have : builtinsMod.head? = some 'b' := by decide
    rw [this]
    rfl
  refine ⟨by rw [inBuiltins_eq]; simp, fun h => ?_, fun h => ?_⟩
  · rw [h] at hh
    exact absurd hh (by decide)
  · rw [h] at hh
    exact absurd hh (by decide)

/-- **C172** In a list, a name of the former module `__builtins__` is read as the class of this name of `builtins`. -/
theorem C172_old_builtins {W : Names} {x : List Char} (hd : '.' ∉ x) (hb : '[' ∉ x) (hi : W.importable (inBuiltins x) = true) :
    oldDeserialize W (oldListOf x) = .ok (.gen .list [.cls (inBuiltins x)]) := by
  obtain ⟨h1, h2, h3⟩ := inBuiltins_ne x
  have hf : fromArg W (dunderBuiltins ++ '.' :: x) = .ok (.cls (inBuiltins x)) := by
    rw [fromArg, if_neg (by simp), if_pos (beforeLast_at hd _), List.drop_left]
    show resolve W (builtinsMod ++ '.' :: x) = _
    rw [← inBuiltins_eq, resolve, if_neg (by simpa using h1), if_neg h2, if_neg h3, if_pos hi]
  rw [oldDeserialize, oldListOf_eq, oldN_bracket, if_neg (by
    simp only [List.mem_append, List.mem_cons, not_or]
    exact ⟨by decide, by decide, hb⟩), oldFlat, if_pos rfl, hf]

/-- A world in which `builtins.complex` can be imported. -/
example : oldDeserialize { oneClass with importable := fun n => n == inBuiltins "complex".toList } (oldListOf "complex".toList) =
    .ok (.gen .list [.cls (inBuiltins "complex".toList)]) := C172_old_builtins (by decide) (by decide) (by simp)

/-- A case of `C172_partial`: `List[Iterator[Dict[Any, pkg.Car]]]`. -/
example : OldReadable oneClass (.gen .list [.gen .iterator [.gen .dict [.any, .cls "pkg.Car".toList]]]) :=
  .inr (.inr (.inr (.deep (by simp) (.deep (by simp) (.dict .any (.cls (by decide) (by decide) ⟨by decide, by decide, by decide⟩ (by decide) (by decide) (by decide) (by decide)
    rfl))))))

end DC.Types
