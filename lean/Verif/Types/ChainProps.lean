import Verif.Types.MatchProps
/-
Property C190: matches of types can be chained.
-/
namespace DC.Types

/-! ### Specification -/

/-- Types made of classes, Any, lists, dictionaries and tuples of a given length. -/
inductive PlainTy : Ty → Prop
  | cls (c : String) : PlainTy (.cls c)
  | any : PlainTy .any
  | list {t : Ty} : PlainTy t → PlainTy (.list t)
  | dict {k v : Ty} : PlainTy k → PlainTy v → PlainTy (.dict k v)
  | tuple {ts : List Ty} : (∀ t ∈ ts, PlainTy t) → PlainTy (.tuple ts)

/-- The second type is wider: Any is wider than all, a class than its subclasses, float than int; lists, dictionaries and tuples of the same length are compared argument by
argument. -/
inductive Wider (C : Classes) : Ty → Ty → Prop
  | any {t : Ty} : Wider C t .any
  | refl {c : String} : Wider C (.cls c) (.cls c)
  | float {c d : String} : c = "int" → d = "float" → Wider C (.cls c) (.cls d)
  | sub {c d : String} : C.sub c d = true → Wider C (.cls c) (.cls d)
  | list {t u : Ty} : Wider C t u → Wider C (.list t) (.list u)
  | dict {k v k' v' : Ty} : Wider C k k' → Wider C v v' → Wider C (.dict k v) (.dict k' v')
  | tuple {ts us : List Ty} : ts.length = us.length → (∀ (i : Nat) (t u : Ty), ts[i]? = some t → us[i]? = some u → Wider C t u) → Wider C (.tuple ts) (.tuple us)

/-- Tuples which face each other in the two types have the same length. -/
inductive Facing : Ty → Ty → Prop
  | any {t : Ty} : Facing t .any
  | cls {t : Ty} {c : String} : Facing t (.cls c)
  | list {t u : Ty} : Facing t u → Facing (.list t) (.list u)
  | dict {k v k' v' : Ty} : Facing k k' → Facing v v' → Facing (.dict k v) (.dict k' v')
  | tuple {ts us : List Ty} : ts.length = us.length → (∀ (i : Nat) (t u : Ty), ts[i]? = some t → us[i]? = some u → Facing t u) → Facing (.tuple ts) (.tuple us)
  | apart {t u : Ty} : (∀ a b, ¬ (t = .list a ∧ u = .list b)) → (∀ a b c d, ¬ (t = .dict a b ∧ u = .dict c d)) → (∀ a b, ¬ (t = .tuple a ∧ u = .tuple b)) → Facing t u

/-- Subclasses of the classes at hand: a subclass of a subclass is one, a subclass of int is one of float or int itself, and int is a subclass of the classes above float. -/
structure Chains (C : Classes) : Prop where
  trans : ∀ c d e, C.sub c d = true → C.sub d e = true → C.sub c e = true
  int : ∀ c, C.sub c "int" = true → c = "int" ∨ C.sub c "float" = true
  float : ∀ d, C.sub "float" d = true → d = "float" ∨ C.sub "int" d = true

/-! ### Proofs -/

section
variable {C : Classes}

theorem matchAll_iff : ∀ {ts us : List Ty}, ts.length = us.length → (matchAll C ts us = .ok true ↔
    ∀ (i : Nat) (t u : Ty), ts[i]? = some t → us[i]? = some u → typematch C t u = .ok true)
  | [], [], _ => by
    rw [matchAll]
    · simp
    · simp
  | t :: ts, u :: us, h => by
    have ih := matchAll_iff (ts := ts) (us := us) (by simpa using h)
    rw [matchAll]
    constructor
    · intro hm i a b ha hb
      cases hc : typematch C t u with
      | error e => rw [hc] at hm; simp [bind, Except.bind] at hm
      | ok r =>
        rw [hc] at hm
        cases r with
        | false => simp [bind, Except.bind] at hm
        | true =>
          simp only [bind, Except.bind, if_true] at hm
          cases i with
          | zero =>
            simp only [List.getElem?_cons_zero, Option.some.injEq] at ha hb
            rw [← ha, ← hb]
            exact hc
          | succ i => exact ih.1 hm i a b (by simpa using ha) (by simpa using hb)
    · intro hm
      rw [hm 0 t u rfl rfl]
      simp only [bind, Except.bind, if_true]
      exact ih.2 fun i a b ha hb => hm (i + 1) a b (by simpa using ha) (by simpa using hb)
  | [], _ :: _, h => by simp at h
  | _ :: _, [], h => by simp at h

theorem tyEqAll_at : ∀ {ts us : List Ty}, tyEqAll ts us = true → ∀ (i : Nat) (t u : Ty), ts[i]? = some t → us[i]? = some u → tyEq t u = true
  | [], _, _, i, t, u, ha, _ => by simp at ha
  | _ :: _, [], _, i, t, u, _, hb => by simp at hb
  | a :: ts, b :: us, h, i, t, u, ha, hb => by
    simp only [tyEqAll, Bool.and_eq_true] at h
    cases i with
    | zero =>
      simp only [List.getElem?_cons_zero, Option.some.injEq] at ha hb
      rw [← ha, ← hb]
      exact h.1
    | succ i => exact tyEqAll_at h.2 i t u (by simpa using ha) (by simpa using hb)

/-- Two tuples of the same length match exactly if their arguments do. -/
theorem tuple_match {ts us : List Ty} (hl : ts.length = us.length) : typematch C (.tuple ts) (.tuple us) = .ok true ↔
    ∀ (i : Nat) (t u : Ty), ts[i]? = some t → us[i]? = some u → typematch C t u = .ok true := by
  rw [typematch]
  by_cases h : tyEqAll ts us = true
  · rw [if_pos (by simp [tyEq, h])]
    simp only [true_iff]
    exact fun i t u ht hu => match_of_eq (tyEqAll_at h i t u ht hu)
  · rw [if_neg (by simp [tyEq, isAny, particular, h]), if_pos (by rfl), if_pos (by rfl)]
    simp only [heal]
    rw [matchHealed]
    exact matchAll_iff hl

theorem not_wider {T U : Ty} (h : ∃ r, typematch C T U = r ∧ r ≠ .ok true) (h' : ¬ Wider C T U) : typematch C T U = .ok true ↔ Wider C T U := by
  obtain ⟨r, h1, h2⟩ := h
  exact ⟨fun hm => absurd (h1.symm.trans hm) h2, fun hw => absurd hw h'⟩

theorem exact_aux (hany : C.anyIsClass = false) {T : Ty} (hT : PlainTy T) : ∀ {U : Ty}, PlainTy U → Facing T U → (typematch C T U = .ok true ↔ Wider C T U) := by
  induction hT with
  | cls c =>
    intro U hU hF
    cases hU with
    | cls d =>
      rw [C17_class]
      simp only [Except.ok.injEq, Bool.or_eq_true, Bool.and_eq_true, beq_iff_eq]
      constructor
      · rintro ((rfl | ⟨rfl, rfl⟩) | h)
        · exact .refl
        · exact .float rfl rfl
        · exact .sub h
      · intro h
        cases h with
        | refl => exact .inl (.inl rfl)
        | float h h' => exact .inl (.inr ⟨h, h'⟩)
        | sub h => exact .inr h
    | any => exact ⟨fun _ => .any, fun _ => C17_any C _⟩
    | list _ | dict _ _ | tuple _ =>
      refine not_wider ⟨.ok false, ?_, by simp⟩ (fun h => nomatch h)
      rw [typematch, if_neg (by simp [tyEq, isAny, particular])]
      simp [isTyping, heal]
  | any =>
    intro U hU hF
    cases hU with
    | cls d =>
      refine not_wider ⟨.error .typeError, ?_, by simp⟩ (fun h => nomatch h)
      rw [typematch, if_neg (by simp [tyEq, isAny, particular])]
      simp [isTyping, issub, hany]
    | any => exact ⟨fun _ => .any, fun _ => C17_any C _⟩
    | list _ | dict _ _ | tuple _ =>
      refine not_wider ⟨.ok false, ?_, by simp⟩ (fun h => nomatch h)
      rw [typematch, if_neg (by simp [tyEq, isAny, particular])]
      simp [isTyping, heal]
  | @list t ht ih =>
    intro U hU hF
    cases hU with
    | any => exact ⟨fun _ => .any, fun _ => C17_any C _⟩
    | @list u hu =>
      have hf : Facing t u := by
        cases hF with
        | list h => exact h
        | apart h _ _ => exact absurd ⟨rfl, rfl⟩ (h t u)
      rw [C17_list, ih hu hf]
      exact ⟨.list, fun h => by cases h with | list h => exact h⟩
    | cls _ | dict _ _ | tuple _ =>
      refine not_wider ⟨.ok false, ?_, by simp⟩ (fun h => nomatch h)
      rw [typematch, if_neg (by simp [tyEq, isAny, particular])]
      simp [isTyping, heal, matchHealed]
  | @dict k v hk hv ihk ihv =>
    intro U hU hF
    cases hU with
    | any => exact ⟨fun _ => .any, fun _ => C17_any C _⟩
    | @dict k' v' hk' hv' =>
      have hf : Facing k k' ∧ Facing v v' := by
        cases hF with
        | dict h h' => exact ⟨h, h'⟩
        | apart _ h _ => exact absurd ⟨rfl, rfl⟩ (h k v k' v')
      rw [C17_dict]
      constructor
      · intro h
        cases hc : typematch C k k' with
        | error e => rw [hc] at h; simp [bind, Except.bind] at h
        | ok r =>
          rw [hc] at h
          cases r with
          | false => simp [bind, Except.bind] at h
          | true =>
            simp only [bind, Except.bind, if_true] at h
            exact .dict ((ihk hk' hf.1).1 hc) ((ihv hv' hf.2).1 h)
      · intro h
        cases h with
        | dict h1 h2 =>
          rw [(ihk hk' hf.1).2 h1]
          simp only [bind, Except.bind, if_true]
          exact (ihv hv' hf.2).2 h2
    | cls _ | list _ | tuple _ =>
      refine not_wider ⟨.ok false, ?_, by simp⟩ (fun h => nomatch h)
      rw [typematch, if_neg (by simp [tyEq, isAny, particular])]
      simp [isTyping, heal, matchHealed]
  | @tuple ts hts ih =>
    intro U hU hF
    cases hU with
    | any => exact ⟨fun _ => .any, fun _ => C17_any C _⟩
    | @tuple us hus =>
      have hf : ts.length = us.length ∧ ∀ (i : Nat) (t u : Ty), ts[i]? = some t → us[i]? = some u → Facing t u := by
        cases hF with
        | tuple h h' => exact ⟨h, h'⟩
        | apart _ _ h => exact absurd ⟨rfl, rfl⟩ (h ts us)
      rw [tuple_match hf.1]
      constructor
      · exact fun h => .tuple hf.1 fun i t u a b =>
          (ih t (List.mem_of_getElem? a) (hus u (List.mem_of_getElem? b)) (hf.2 i t u a b)).1 (h i t u a b)
      · intro h
        cases h with
        | tuple _ h => exact fun i t u a b =>
            (ih t (List.mem_of_getElem? a) (hus u (List.mem_of_getElem? b)) (hf.2 i t u a b)).2 (h i t u a b)
    | cls _ | list _ | dict _ _ =>
      refine not_wider ⟨.ok false, ?_, by simp⟩ (fun h => nomatch h)
      rw [typematch, if_neg (by simp [tyEq, isAny, particular])]
      simp [isTyping, heal, matchHealed]

theorem Wider.facing {T U : Ty} (h : Wider C T U) : Facing T U := by
  induction h with
  | any => exact .any
  | refl => exact .cls
  | float _ _ => exact .cls
  | sub _ => exact .cls
  | list _ ih => exact .list ih
  | dict _ _ ih ih' => exact .dict ih ih'
  | tuple hl _ ih => exact .tuple hl ih

theorem Wider.trans (hC : Chains C) {T U V : Ty} (h : Wider C T U) : Wider C U V → Wider C T V := by
  induction h generalizing V with
  | any =>
    intro h
    cases h
    exact .any
  | refl => exact id
  | float hc hd =>
    intro h
    cases h with
    | any => exact .any
    | refl => exact .float hc hd
    | float h h' => exact .float hc h'
    | sub h =>
      subst hc hd
      rcases hC.float _ h with rfl | h
      · exact .float rfl rfl
      · exact .sub h
  | sub hs =>
    intro h
    cases h with
    | any => exact .any
    | refl => exact .sub hs
    | float h h' =>
      subst h h'
      rcases hC.int _ hs with rfl | h
      · exact .float rfl rfl
      · exact .sub h
    | sub h => exact .sub (hC.trans _ _ _ hs h)
  | list _ ih =>
    intro h
    cases h with
    | any => exact .any
    | list h => exact .list (ih h)
  | dict _ _ ih ih' =>
    intro h
    cases h with
    | any => exact .any
    | dict h h' => exact .dict (ih h) (ih' h')
  | @tuple ts us hl _ ih =>
    intro h
    cases h with
    | any => exact .any
    | @tuple _ vs hl' h' =>
      refine .tuple (hl.trans hl') fun i t v ht hv => ?_
      have hi : i < us.length := hl ▸ (List.getElem?_eq_some_iff.1 ht).1
      have hu : us[i]? = some us[i] := List.getElem?_eq_getElem hi
      exact ih i t _ ht hu (h' i _ v hu hv)

end

/-! ### C190 -/

/-- On types made of classes, Any, lists, dictionaries and tuples, with facing tuples of the same length, typematch tells exactly whether the second type is wider.  Missing
for the full property: see `C190_partial`. -/
theorem C190_exact_partial {C : Classes} (hany : C.anyIsClass = false) {T U : Ty} (hT : PlainTy T) (hU : PlainTy U) (hF : Facing T U) :
    typematch C T U = .ok true ↔ Wider C T U := exact_aux hany hT hU hF

/-- If such a type matches another one, which matches a third one, then the first matches the third.  Missing for the full property: a subclass of int is not one of float, as bool
(`C190_bool_violated`); from Python 3.11 on, Any between two types (`C190_any_violated`); tuples of different lengths (`C190_tuple_violated`); unions (`C190_order_violated`). -/
theorem C190_partial {C : Classes} (hany : C.anyIsClass = false) (hC : Chains C) {T U V : Ty} (hT : PlainTy T) (hU : PlainTy U) (hV : PlainTy V) (hF : Facing T U) (hF' : Facing U V)
    (h : typematch C T U = .ok true) (h' : typematch C U V = .ok true) : typematch C T V = .ok true := by
  have hw := Wider.trans hC ((exact_aux hany hT hU hF).1 h) ((exact_aux hany hU hV hF').1 h')
  exact (exact_aux hany hT hV hw.facing).2 hw

/-- With the classes of Python, bool matches int, and int matches float, but bool does not match float. -/
theorem C190_bool_violated {C : Classes} (h : C.sub "bool" "int" = true) (h' : C.sub "bool" "float" = false) :
    typematch C (.cls "bool") (.cls "int") = .ok true ∧ typematch C (.cls "int") (.cls "float") = .ok true ∧ typematch C (.cls "bool") (.cls "float") = .ok false := by
  simp only [C17_class]
  simp [h, h']

/-- Where Any is a class, a list type matches Any, which matches object, but it does not match object. -/
theorem C190_any_violated {C : Classes} (h : C.anyIsClass = true) (T : Ty) :
    typematch C (.list T) .any = .ok true ∧ typematch C .any (.cls "object") = .ok true ∧ typematch C (.list T) (.cls "object") = .ok false := by
  refine ⟨C17_any C _, ?_, ?_⟩
  · rw [typematch, if_neg (by simp [tyEq, isAny, particular])]
    simp [isTyping, issub, h]
  · rw [typematch, if_neg (by simp [tyEq, isAny, particular])]
    simp [isTyping]

/-- A pair matches a tuple of one, which matches any pair with the same first type. -/
theorem C190_tuple_violated {C : Classes} {T A B : Ty} (h : typematch C A B = .ok false) :
    typematch C (.tuple [T, A]) (.tuple [T]) = .ok true ∧ typematch C (.tuple [T]) (.tuple [T, B]) = .ok true ∧ typematch C (.tuple [T, A]) (.tuple [T, B]) = .ok false := by
  have hne : tyEq A B = false := by
    cases he : tyEq A B with
    | false => rfl
    | true =>
      rw [match_of_eq he] at h
      cases h
  refine ⟨?_, ?_, ?_⟩
  · rw [typematch, if_neg (by simp [tyEq, tyEqAll, isAny, particular]), if_pos (by rfl), if_pos (by rfl)]
    simp only [heal]
    rw [matchHealed, matchAll, C17_refl]
    simp only [bind, Except.bind, if_true]
    rw [matchAll]
    simp
  · rw [typematch, if_neg (by simp [tyEq, tyEqAll, isAny, particular]), if_pos (by rfl), if_pos (by rfl)]
    simp only [heal]
    rw [matchHealed, matchAll, C17_refl]
    simp only [bind, Except.bind, if_true]
    rw [matchAll]
    simp
  · rw [typematch, if_neg (by simp [tyEq, tyEqAll, isAny, particular, hne]), if_pos (by rfl), if_pos (by rfl)]
    simp only [heal]
    rw [matchHealed, matchAll, C17_refl]
    simp only [bind, Except.bind, if_true]
    rw [matchAll, h]
    simp [bind, Except.bind]

/-- Union[None, List[T]] equals, hence matches, Optional[List[T]], which matches List[T]; but it does not match List[T]. -/
theorem C190_order_violated (C : Classes) (T : Ty) :
    typematch C (.union [.cls "NoneType", .list T]) (.union [.list T, .cls "NoneType"]) = .ok true ∧
    typematch C (.union [.list T, .cls "NoneType"]) (.list T) = .ok true ∧ typematch C (.union [.cls "NoneType", .list T]) (.list T) = .ok false := by
  refine ⟨match_of_eq ?_, ?_, ?_⟩
  · simp [tyEq, eachIn, eqSome, tyEq_refl]
  · rw [typematch, if_neg (by simp [tyEq, isAny, particular]), if_pos (by rfl), if_pos (by rfl)]
    simp only [heal, isDefaultUnion, tyEq, List.length_cons, List.length_nil, Nat.zero_add, Nat.reduceAdd, BEq.rfl, List.any_cons, List.any_nil,
      Bool.or_false, Bool.false_or, Bool.and_self, if_true, List.headD_cons]
    rw [matchHealed]
    exact C17_refl C T
  · rw [typematch, if_neg (by simp [tyEq, isAny, particular]), if_pos (by rfl), if_pos (by rfl)]
    simp [heal, isDefaultUnion, tyEq, matchHealed, isTyping]

/-! ### Examples -/

/-- Classes of a user: a Car is a Vehicle, which is an object. -/
def exCars : Classes where
  sub c d := c == d || d == "object" || (c == "Car" && d == "Vehicle")
  anyIsClass := false

theorem exCars_chains : Chains exCars where
  trans c d e h h' := by
    simp only [exCars, Bool.or_eq_true, beq_iff_eq, Bool.and_eq_true] at h h' ⊢
    rcases h with (rfl | rfl) | ⟨rfl, rfl⟩ <;> rcases h' with (rfl | rfl) | ⟨h', rfl⟩ <;> simp_all
  int c h := by
    simp only [exCars, Bool.or_eq_true, beq_iff_eq, Bool.and_eq_true] at h
    rcases h with (rfl | h) | ⟨_, h⟩
    · exact .inl rfl
    · simp at h
    · simp at h
  float d h := by
    simp only [exCars, Bool.or_eq_true, beq_iff_eq, Bool.and_eq_true] at h ⊢
    rcases h with (rfl | rfl) | ⟨h, _⟩
    · exact .inl rfl
    · exact .inr (.inl (.inr rfl))
    · simp at h

/-- Dict[int, List[Car]] matches Dict[float, List[Vehicle]], which matches Dict[object, List[Any]]. -/
example : typematch exCars (.dict (.cls "int") (.list (.cls "Car"))) (.dict (.cls "object") (.list .any)) = .ok true := by
  have p : ∀ c d, PlainTy (.dict (.cls c) (.list (.cls d))) := fun c d => .dict (.cls c) (.list (.cls d))
  have q : PlainTy (.dict (.cls "object") (.list .any)) := .dict (.cls _) (.list .any)
  refine C190_partial rfl exCars_chains (U := .dict (.cls "float") (.list (.cls "Vehicle"))) (p _ _) (p _ _) q (.dict .cls (.list .cls)) (.dict .cls (.list .any)) ?_ ?_
  · exact (C190_exact_partial rfl (p _ _) (p _ _) (.dict .cls (.list .cls))).2 (.dict (.float rfl rfl) (.list (.sub (by decide))))
  · exact (C190_exact_partial rfl (p _ _) q (.dict .cls (.list .any))).2 (.dict (.sub (by decide)) (.list .any))

/-- Python's classes meet the hypotheses of `C190_bool_violated`, and those of `C190_tuple_violated` are met by str and int. -/
example : typematch exCars (.cls "str") (.cls "int") = .ok false := by
  rw [C17_class]
  rfl

example : ∃ C : Classes, C.sub "bool" "int" = true ∧ C.sub "bool" "float" = false ∧ C.anyIsClass = true :=
  ⟨⟨fun c d => c == d || (c == "bool" && d == "int"), true⟩, by decide, by decide, rfl⟩

end DC.Types
