import Verif.Types.Match
/-
Specification and properties of the matching of types (C16, C17).
-/
namespace DC.Types

/-! ### Specification: values of a type -/

/-- Python values, as far as annotations see them. -/
inductive V where
  | obj (cls : String)
  | list (vs : List V)
  | tuple (vs : List V)
  | dict (kvs : List (V × V))

/-- The class of a value. -/
def V.cls : V → String
  | .obj c => c
  | .list _ => "list"
  | .tuple _ => "tuple"
  | .dict _ => "dict"

/-- The facts about Python classes which are used: `issubclass` is transitive, `object` is above
all, and a class above `float` is `float` or above
`int`.  `other` says which values the other generic typings have. -/
structure World extends Classes where
  trans : ∀ a b c, sub a b = true → sub b c = true → sub a c = true
  object : ∀ c, sub c "object" = true
  float_up : ∀ d, sub "float" d = true → d = "float" ∨ sub "int" d = true
  other : V → String → List Ty → Prop
  other_congr : ∀ v o ts us, tyEqAll ts us = true → other v o ts → other v o us

mutual
/-- `v` is a value of the annotation, an int being also a float. -/
def HasType (W : World) (v : V) : Ty → Prop
  | .cls c => W.sub v.cls c = true ∨ (c = "float" ∧ W.sub v.cls "int" = true)
  | .any => True
  | .ellipsis => False
  | .list t => ∃ vs, v = .list vs ∧ ∀ x ∈ vs, HasType W x t
  | .tuple ts => ∃ vs, v = .tuple vs ∧ HasTypes W vs ts
  | .dict k t => ∃ kvs, v = .dict kvs ∧ ∀ p ∈ kvs, HasType W p.1 k ∧ HasType W p.2 t
  | .union ts => HasSome W v ts
  | .other o ts => W.other v o ts
/-- The elements of a tuple have the types, in order; a type followed by the ellipsis is for any number of elements. -/
def HasTypes (W : World) (vs : List V) : List Ty → Prop
  | [] => vs = []
  | t :: ts => (ts = [.ellipsis] ∧ ∀ x ∈ vs, HasType W x t) ∨ (ts ≠ [.ellipsis] ∧ ∃ x xs, vs = x :: xs ∧ HasType W x t ∧ HasTypes W xs ts)
/-- The value has one of the types. -/
def HasSome (W : World) (v : V) : List Ty → Prop
  | [] => False
  | t :: ts => HasType W v t ∨ HasSome W v ts
end

/-- `Optional[...]`, that is a union of a type and NoneType. -/
def IsOptional (T : Ty) : Prop := ∃ t, T = .union [t, .cls "NoneType"] ∨ T = .union [.cls "NoneType", t]

/-- Two tuple types of the same shape: as many types, or both of any length, or one type against any length. -/
def SameShape (ts us : List Ty) : Prop :=
  (ts.length = us.length ∧ .ellipsis ∉ ts ∧ .ellipsis ∉ us) ∨ (∃ t u, ts = [t, .ellipsis] ∧ us = [u, .ellipsis]) ∨ ∃ t u, ts = [t] ∧ us = [u, .ellipsis]

/-- The pairs of types in the comparison of which an optional type is compared to an other type, or tuple types of different
shapes are compared. -/
inductive Bad : Ty → Ty → Prop
  | optional {T U} : IsOptional T → tyEq T U = false → Bad T U
  | shape {ts us} : ¬ SameShape ts us → tyEq (.tuple ts) (.tuple us) = false → Bad (.tuple ts) (.tuple us)
  | list {t u} : Bad t u → Bad (.list t) (.list u)
  | key {k v k' v'} : Bad k k' → Bad (.dict k v) (.dict k' v')
  | value {k v k' v'} : Bad v v' → Bad (.dict k v) (.dict k' v')
  | tuple {ts us : List Ty} {t u : Ty} {i : Nat} : ts[i]? = some t → us[i]? = some u → Bad t u → Bad (.tuple ts) (.tuple us)
  | inOptional {T us} : IsOptional (.union us) → Bad T (us.headD .any) → Bad T (.union us)

/-! ### Equality of types -/

mutual
theorem tyEq_refl : ∀ t : Ty, tyEq t t = true
  | .cls c => by simp [tyEq]
  | .any => by simp [tyEq]
  | .ellipsis => by simp [tyEq]
  | .list t => by rw [tyEq]; exact tyEq_refl t
  | .tuple ts => by rw [tyEq]; exact tyEqAll_refl ts
  | .dict k v => by rw [tyEq, tyEq_refl k, tyEq_refl v]; rfl
  | .union ts => by
    rw [tyEq, eachIn_sub ts ts (fun t h => h), Bool.true_and, List.all_eq_true]
    exact fun u hu => eqSome_mem ts u hu
  | .other o ts => by rw [tyEq, tyEqAll_refl ts]; simp
theorem tyEqAll_refl : ∀ ts : List Ty, tyEqAll ts ts = true
  | [] => by simp [tyEqAll]
  | t :: ts => by rw [tyEqAll, tyEq_refl t, tyEqAll_refl ts]; rfl
theorem eachIn_sub : ∀ (ts us : List Ty), (∀ t ∈ ts, t ∈ us) → eachIn ts us = true
  | [], _, _ => by simp [eachIn]
  | t :: ts, us, h => by
    rw [eachIn, eachIn_sub ts us fun x hx => h x (.tail _ hx), Bool.and_true, List.any_eq_true]
    exact ⟨t, h t (.head _), tyEq_refl t⟩
theorem eqSome_mem : ∀ (ts : List Ty) (u : Ty), u ∈ ts → eqSome ts u = true
  | [], u, h => by simp at h
  | t :: ts, u, h => by
    rw [eqSome]
    by_cases hx : u ∈ ts
    · rw [eqSome_mem ts u hx, Bool.or_true]
    · rcases List.mem_cons.1 h with h | h
      · rw [h, tyEq_refl t, Bool.true_or]
      · exact absurd h hx
end

theorem hasSome_iff {W : World} {v : V} {ts : List Ty} : HasSome W v ts ↔ ∃ t ∈ ts, HasType W v t := by
  induction ts with
  | nil => simp [HasSome]
  | cons t ts ih => simp [HasSome, ih]

theorem tyEq_ellipsis {t : Ty} (h : tyEq t .ellipsis = true) : t = .ellipsis := by
  cases t <;> simp [tyEq] at h ⊢

theorem ellipsis_tyEq {t : Ty} (h : tyEq .ellipsis t = true) : t = .ellipsis := by
  cases t <;> simp [tyEq] at h ⊢

theorem tyEqAll_ellipsis {ts us : List Ty} (h : tyEqAll ts us = true) : ts = [.ellipsis] ↔ us = [.ellipsis] := by
  match ts, us with
  | [], [] => simp
  | [], _ :: _ => simp [tyEqAll] at h
  | _ :: _, [] => simp [tyEqAll] at h
  | t :: ts, u :: us =>
    rw [tyEqAll, Bool.and_eq_true] at h
    constructor
    · rintro h'
      simp only [List.cons.injEq] at h'
      obtain ⟨rfl, rfl⟩ := h'
      rw [ellipsis_tyEq h.1]
      match us with
      | [] => rfl
      | _ :: _ => simp [tyEqAll] at h
    · rintro h'
      simp only [List.cons.injEq] at h'
      obtain ⟨rfl, rfl⟩ := h'
      rw [tyEq_ellipsis h.1]
      match ts with
      | [] => rfl
      | _ :: _ => simp [tyEqAll] at h

mutual
/-- Equal types have the same values. -/
theorem tyEq_sound (W : World) : ∀ (t u : Ty) (v : V), tyEq t u = true → HasType W v t → HasType W v u
  | .cls c, u, v, h, hv => by
    cases u with
    | cls d => simp [tyEq] at h; subst h; exact hv
    | _ => simp [tyEq] at h
  | .any, u, v, h, hv => by cases u with
    | any => exact hv
    | _ => simp [tyEq] at h
  | .ellipsis, u, v, h, hv => by simp [HasType] at hv
  | .list t, u, v, h, hv => by
    cases u with
    | list u =>
      rw [tyEq] at h
      rw [HasType] at hv ⊢
      obtain ⟨vs, rfl, hv⟩ := hv
      exact ⟨vs, rfl, fun x hx => tyEq_sound W t u x h (hv x hx)⟩
    | _ => simp [tyEq] at h
  | .tuple ts, u, v, h, hv => by
    cases u with
    | tuple us =>
      rw [tyEq] at h
      rw [HasType] at hv ⊢
      obtain ⟨vs, rfl, hv⟩ := hv
      exact ⟨vs, rfl, tyEqAll_sound W ts us vs h hv⟩
    | _ => simp [tyEq] at h
  | .dict k t, u, v, h, hv => by
    cases u with
    | dict k' t' =>
      rw [tyEq, Bool.and_eq_true] at h
      rw [HasType] at hv ⊢
      obtain ⟨vs, rfl, hv⟩ := hv
      exact ⟨vs, rfl, fun x hx => ⟨tyEq_sound W k k' _ h.1 (hv x hx).1, tyEq_sound W t t' _ h.2 (hv x hx).2⟩⟩
    | _ => simp [tyEq] at h
  | .union ts, u, v, h, hv => by
    cases u with
    | union us =>
      rw [tyEq, Bool.and_eq_true] at h
      rw [HasType] at hv ⊢
      exact eachIn_sound W ts us v h.1 hv
    | _ => simp [tyEq] at h
  | .other o ts, u, v, h, hv => by
    cases u with
    | other o' us =>
      rw [tyEq, Bool.and_eq_true, beq_iff_eq] at h
      rw [HasType] at hv ⊢
      rw [← h.1]
      exact W.other_congr v o ts us h.2 hv
    | _ => simp [tyEq] at h
theorem tyEqAll_sound (W : World) : ∀ (ts us : List Ty) (vs : List V), tyEqAll ts us = true → HasTypes W vs ts → HasTypes W vs us
  | [], us, vs, h, hv => by
    match us with
    | [] => exact hv
    | _ :: _ => simp [tyEqAll] at h
  | t :: ts, us, vs, h, hv => by
    match us with
    | [] => simp [tyEqAll] at h
    | u :: us =>
      rw [tyEqAll, Bool.and_eq_true] at h
      rw [HasTypes] at hv ⊢
      have hiff := tyEqAll_ellipsis h.2
      rcases hv with ⟨h1, h2⟩ | ⟨h1, x, xs, rfl, h2, h3⟩
      · exact .inl ⟨hiff.1 h1, fun x hx => tyEq_sound W t u x h.1 (h2 x hx)⟩
      · exact .inr ⟨fun h' => h1 (hiff.2 h'), x, xs, rfl, tyEq_sound W t u x h.1 h2, tyEqAll_sound W ts us xs h.2 h3⟩
theorem eachIn_sound (W : World) : ∀ (ts us : List Ty) (v : V), eachIn ts us = true → HasSome W v ts → HasSome W v us
  | [], us, v, h, hv => by simp [HasSome] at hv
  | t :: ts, us, v, h, hv => by
    rw [eachIn, Bool.and_eq_true, List.any_eq_true] at h
    rw [HasSome] at hv
    rcases hv with hv | hv
    · obtain ⟨u, hu, he⟩ := h.1
      exact hasSome_iff.2 ⟨u, hu, tyEq_sound W t u v he hv⟩
    · exact eachIn_sound W ts us v h.2 hv
end

/-! ### C16: soundness -/

theorem tyEq_none {t : Ty} : tyEq t (.cls "NoneType") = true ↔ t = .cls "NoneType" := by
  cases t <;> simp [tyEq]

theorem isDefaultUnion_iff {ts : List Ty} : isDefaultUnion ts = true ↔ IsOptional (.union ts) := by
  unfold isDefaultUnion IsOptional
  match ts with
  | [] => simp
  | [a] => simp
  | [a, b] =>
    simp only [List.length_cons, List.length_nil, Nat.zero_add, Nat.reduceAdd, BEq.rfl, List.any_cons, List.any_nil, Bool.or_false,
      Bool.true_and, Bool.or_eq_true, tyEq_none, Ty.union.injEq, List.cons.injEq, and_true]
    constructor
    · rintro (h | h)
      · exact ⟨b, .inr ⟨h, rfl⟩⟩
      · exact ⟨a, .inl ⟨rfl, h⟩⟩
    · rintro ⟨t, ⟨-, h⟩ | ⟨h, -⟩⟩
      · exact .inr h
      · exact .inl h
  | a :: b :: c :: l => simp

theorem heal_not_optional {T : Ty} (h : ¬ IsOptional T) : heal T = T := by
  cases T with
  | union ts => rw [← isDefaultUnion_iff] at h; rw [heal, if_neg h]
  | _ => rfl

theorem subclass_sound (W : World) {c d : String} {v : V} (h : W.sub c d = true) (hv : HasType W v (.cls c)) : HasType W v (.cls d) := by
  rw [HasType] at hv ⊢
  rcases hv with hv | ⟨rfl, hv⟩
  · exact .inl (W.trans _ _ _ hv h)
  · rcases W.float_up d h with rfl | h'
    · exact .inr ⟨rfl, hv⟩
    · exact .inl (W.trans _ _ _ hv h')

theorem bad_simple {T U : Ty} (h : Bad T U) : isTyping T = true := by
  induction h with
  | optional h _ => obtain ⟨t, rfl | rfl⟩ := h <;> rfl
  | inOptional _ _ ih => exact ih
  | _ => rfl

/-- The claim for two types. -/
def Sound (W : World) (T U : Ty) : Prop :=
  ∀ v, typematch W.toClasses T U = .ok true → ¬ Bad T U → HasType W v T → HasType W v U

theorem some_sound (W : World) {T : Ty} (htyp : isTyping T = false) : ∀ {us : List Ty}, (∀ u ∈ us, Sound W T u) → ∀ v,
    matchSome W.toClasses T us = .ok true → HasType W v T → HasSome W v us
  | [], _, v, hm, _ => by rw [matchSome] at hm; simp at hm
  | u :: us, ih, v, hm, hv => by
    rw [matchSome] at hm
    cases h1 : typematch W.toClasses T u with
    | error e => rw [h1] at hm; simp [bind, Except.bind] at hm
    | ok a =>
      cases h2 : matchSome W.toClasses T us with
      | error e => rw [h1, h2] at hm; simp [bind, Except.bind] at hm
      | ok b =>
        rw [h1, h2] at hm
        simp only [bind, Except.bind, Except.ok.injEq, Bool.or_eq_true] at hm
        rw [HasSome]
        rcases hm with rfl | rfl
        · exact .inl (ih u (.head _) v h1 (fun h => by have := bad_simple h; rw [htyp] at this; simp at this) hv)
        · exact .inr (some_sound W htyp (fun x hx => ih x (.tail _ hx)) v h2 hv)

theorem matchAll_cons {C : Classes} {t u : Ty} {ts us : List Ty} (h : matchAll C (t :: ts) (u :: us) = .ok true) :
    typematch C t u = .ok true ∧ matchAll C ts us = .ok true := by
  rw [matchAll] at h
  cases h1 : typematch C t u with
  | error e => rw [h1] at h; simp [bind, Except.bind] at h
  | ok a =>
    rw [h1] at h
    cases a with
    | true => exact ⟨rfl, by simpa [bind, Except.bind] using h⟩
    | false => simp [bind, Except.bind] at h

theorem all_sound (W : World) : ∀ {ts us : List Ty}, ts.length = us.length → .ellipsis ∉ ts → .ellipsis ∉ us → (∀ u ∈ us, ∀ t, Sound W t u) →
    (∀ (i : Nat) (t u : Ty), ts[i]? = some t → us[i]? = some u → ¬ Bad t u) → ∀ vs, matchAll W.toClasses ts us = .ok true → HasTypes W vs ts → HasTypes W vs us
  | [], [], _, _, _, _, _, vs, _, hv => hv
  | [], _ :: _, h, _, _, _, _, _, _, _ => by simp at h
  | _ :: _, [], h, _, _, _, _, _, _, _ => by simp at h
  | t :: ts, u :: us, hl, ht, hu, ih, hb, vs, hm, hv => by
    obtain ⟨h1, h2⟩ := matchAll_cons hm
    rw [HasTypes] at hv ⊢
    rcases hv with ⟨h, -⟩ | ⟨-, x, xs, rfl, h3, h4⟩
    · rw [h] at ht; simp at ht
    · refine .inr ⟨fun h => by rw [h] at hu; simp at hu, x, xs, rfl, ih u (.head _) t x h1 (hb 0 t u rfl rfl) h3, ?_⟩
      exact all_sound W (by simpa using hl) (fun h => ht (.tail _ h)) (fun h => hu (.tail _ h)) (fun x hx => ih x (.tail _ hx))
        (fun i a b ha hb' => hb (i + 1) a b (by simpa using ha) (by simpa using hb')) xs h2 h4

theorem mem_size {u : Ty} : ∀ {us : List Ty}, u ∈ us → sizeOf u < sizeOf us
  | x :: us, h => by
    rcases List.mem_cons.1 h with rfl | h
    · simp; omega
    · have := mem_size h
      simp; omega

theorem healed_sound (W : World) {T U : Ty} (ih : ∀ T' U', sizeOf U' < sizeOf U → Sound W T' U') {v : V}
    (hm : matchHealed W.toClasses T U = .ok true) (hb : ¬ Bad T U) (htyp : isTyping T = true) (hv : HasType W v T) : HasType W v U := by
  by_cases heq : tyEq T U = true
  · exact tyEq_sound W T U v heq hv
  have heq' : tyEq T U = false := by simpa using heq
  rw [matchHealed.eq_def] at hm
  split at hm
  · rename_i t u
    rw [HasType] at hv ⊢
    obtain ⟨vs, rfl, hv⟩ := hv
    exact ⟨vs, rfl, fun x hx => ih t u (by simp) x hm (fun h => hb (.list h)) (hv x hx)⟩
  · rename_i ts us
    have hshape : SameShape ts us := by
      by_cases hs : SameShape ts us
      · exact hs
      · exact absurd (.shape hs heq') hb
    rw [HasType] at hv ⊢
    obtain ⟨vs, rfl, hv⟩ := hv
    refine ⟨vs, rfl, ?_⟩
    rcases hshape with ⟨h1, h2, h3⟩ | ⟨t, u, rfl, rfl⟩ | ⟨t, u, rfl, rfl⟩
    · refine all_sound W h1 h2 h3 (fun u hu t => ih t u ?_) (fun i t u ht hu hbad => hb (.tuple ht hu hbad)) vs hm hv
      have := mem_size hu
      simp; omega
    · obtain ⟨h1, -⟩ := matchAll_cons hm
      rw [HasTypes] at hv ⊢
      rcases hv with ⟨-, hv⟩ | ⟨h, -⟩
      · exact .inl ⟨rfl, fun x hx => ih t u (by simp; omega) x h1 (fun h => hb (.tuple (i := 0) rfl rfl h)) (hv x hx)⟩
      · exact absurd rfl h
    · obtain ⟨h1, -⟩ := matchAll_cons hm
      rw [HasTypes] at hv ⊢
      rcases hv with ⟨h, -⟩ | ⟨-, x, xs, rfl, h2, h3⟩
      · simp at h
      · rw [HasTypes] at h3
        subst h3
        refine .inl ⟨rfl, fun y hy => ?_⟩
        simp only [List.mem_singleton] at hy
        subst hy
        exact ih t u (by simp; omega) y h1 (fun h => hb (.tuple (i := 0) rfl rfl h)) h2
  · rename_i k t k' t'
    cases h1 : typematch W.toClasses k k' with
    | error e => rw [h1] at hm; simp [bind, Except.bind] at hm
    | ok a =>
      rw [h1] at hm
      cases a with
      | false => simp [bind, Except.bind] at hm
      | true =>
        have h2 : typematch W.toClasses t t' = .ok true := by simpa [bind, Except.bind] using hm
        rw [HasType] at hv ⊢
        obtain ⟨kvs, rfl, hv⟩ := hv
        exact ⟨kvs, rfl, fun p hp => ⟨ih k k' (by simp; omega) _ h1 (fun h => hb (.key h)) (hv p hp).1,
          ih t t' (by simp; omega) _ h2 (fun h => hb (.value h)) (hv p hp).2⟩⟩
  · rename_i ts us
    simp only [Except.ok.injEq] at hm
    rw [HasType] at hv ⊢
    exact eachIn_sound W ts us v hm hv
  · split at hm <;> simp at hm
  · split at hm <;> simp at hm

theorem sound_aux (W : World) (n : Nat) : ∀ T U, sizeOf U < n → Sound W T U := by
  induction n with
  | zero => intro _ _ h; omega
  | succ n ihn =>
    intro T U hsz v hm hb hv
    have ih : ∀ T' U', sizeOf U' < sizeOf U → Sound W T' U' := fun T' U' h => ihn T' U' (by omega)
    by_cases heq : tyEq T U = true
    · exact tyEq_sound W T U v heq hv
    have heq' : tyEq T U = false := by simpa using heq
    have hT : ¬ IsOptional T := fun h => hb (.optional h heq')
    rw [typematch] at hm
    by_cases hany : isAny U = true
    · cases U with
      | any => simp [HasType]
      | _ => simp [isAny] at hany
    by_cases hpart : particular T U = true
    · cases T with
      | cls c =>
        cases U with
        | cls d =>
          simp [particular] at hpart
          obtain ⟨rfl, rfl⟩ := hpart
          rw [HasType] at hv ⊢
          rcases hv with hv | ⟨h, -⟩
          · exact .inr ⟨rfl, hv⟩
          · simp at h
        | _ => simp [particular] at hpart
      | _ => simp [particular] at hpart
    rw [if_neg (by simp [heq', hany, hpart]), heal_not_optional hT] at hm
    by_cases htyp : isTyping T = true
    · rw [if_pos htyp] at hm
      by_cases hU : isTyping U = true
      · rw [if_pos hU] at hm
        by_cases hopt : IsOptional U
        · cases U with
          | union us =>
            rw [heal, if_pos (isDefaultUnion_iff.2 hopt)] at hm
            rw [HasType, hasSome_iff]
            match us, hopt with
            | [], hopt => exact absurd (isDefaultUnion_iff.2 hopt) (by decide)
            | u :: us, hopt =>
              refine ⟨u, .head _, healed_sound W (fun T' U' h => ih T' U' ?_) hm (fun h => hb (.inOptional hopt h)) htyp hv⟩
              simp; omega
          | _ => simp [IsOptional] at hopt
        · rw [heal_not_optional hopt] at hm
          exact healed_sound W ih hm hb htyp hv
      · rw [if_neg hU] at hm
        simp at hm
    · have htyp' : isTyping T = false := by simpa using htyp
      rw [if_neg htyp] at hm
      by_cases hU : isTyping U = true
      · rw [if_pos hU] at hm
        split at hm
        · rename_i us hh
          have hsz' := heal_size U
          rw [hh] at hsz'
          have hsome := some_sound W htyp' (fun u hu => ih T u (by have := mem_size hu; simp at hsz'; omega)) v hm hv
          cases U with
          | union ws =>
            rw [heal] at hh
            split at hh
            · rename_i hd
              match ws, hd with
              | w :: ws, hd =>
                simp only [List.headD_cons] at hh
                subst hh
                rw [HasType, HasSome, HasType]
                exact .inl hsome
            · simp only [Ty.union.injEq] at hh
              subst hh
              rw [HasType]
              exact hsome
          | _ => simp [heal] at hh
        · simp at hm
      · rw [if_neg hU] at hm
        cases T with
        | cls c =>
          cases U with
          | cls d =>
            simp only [issub, Except.ok.injEq] at hm
            exact subclass_sound W hm hv
          | _ => simp [issub] at hm
        | any =>
          cases U with
          | cls d =>
            simp only [issub] at hm
            split at hm
            · simp only [Except.ok.injEq, beq_iff_eq] at hm
              subst hm
              rw [HasType]
              exact .inl (W.object _)
            · simp at hm
          | _ => simp [issub] at hm
        | ellipsis => simp [issub] at hm
        | _ => simp [isTyping] at htyp

/-- If typematch says yes, every value of the first type is a value of the second, unless an optional type is compared to an other
type or two tuple types of different shapes are compared.  Missing for the full property: these two cases
(`C16_optional_violated`, `C16_tuple_violated`). -/
theorem C16_partial (W : World) {T U : Ty} (hm : typematch W.toClasses T U = .ok true) (hb : ¬ Bad T U) {v : V} (hv : HasType W v T) :
    HasType W v U := sound_aux W (sizeOf U + 1) T U (by omega) v hm hb hv

/-- A world of a few classes, for the examples. -/
def small : World where
  sub c d := c == d || d == "object" || (c == "bool" && d == "int") || (c == "Sub" && d == "Base")
  anyIsClass := true
  trans a b c h1 h2 := by
    simp only [Bool.or_eq_true, beq_iff_eq, Bool.and_eq_true] at h1 h2 ⊢
    rcases h1 with ((rfl | rfl) | ⟨rfl, rfl⟩) | ⟨rfl, rfl⟩ <;> rcases h2 with ((rfl | rfl) | ⟨h, rfl⟩) | ⟨h, rfl⟩ <;> simp_all
  object c := by simp
  float_up d h := by
    simp only [Bool.or_eq_true, beq_iff_eq, Bool.and_eq_true] at h ⊢
    rcases h with ((rfl | rfl) | ⟨h, rfl⟩) | ⟨h, rfl⟩ <;> simp_all
  other _ _ _ := False
  other_congr _ _ _ _ _ h := h

/-- `Tuple[int, int]` matches `Tuple[int]`, although a pair of ints is not a value of the latter. -/
theorem C16_tuple_violated : typematch small.toClasses (.tuple [.cls "int", .cls "int"]) (.tuple [.cls "int"]) = .ok true ∧
    HasType small (.tuple [.obj "int", .obj "int"]) (.tuple [.cls "int", .cls "int"]) ∧
    ¬ HasType small (.tuple [.obj "int", .obj "int"]) (.tuple [.cls "int"]) := by
  refine ⟨?_, ?_, ?_⟩
  · simp [typematch, matchHealed, matchAll, tyEq, tyEqAll, isAny, particular, isTyping, heal, bind, Except.bind]
  · simp only [HasType, HasTypes]
    exact ⟨_, rfl, .inr ⟨by simp, _, _, rfl, by simp [small, V.cls], .inr ⟨by simp, _, _, rfl, by simp [small, V.cls], rfl⟩⟩⟩
  · simp [HasType, HasTypes]

/-- `Tuple[int, ...]` matches `Tuple[float]`, although a pair of ints is not a value of the latter. -/
theorem C16_variadic_violated : typematch small.toClasses (.tuple [.cls "int", .ellipsis]) (.tuple [.cls "float"]) = .ok true ∧
    HasType small (.tuple [.obj "int", .obj "int"]) (.tuple [.cls "int", .ellipsis]) ∧
    ¬ HasType small (.tuple [.obj "int", .obj "int"]) (.tuple [.cls "float"]) := by
  refine ⟨?_, ?_, ?_⟩
  · simp [typematch, matchHealed, matchAll, tyEq, tyEqAll, isAny, particular, isTyping, heal, bind, Except.bind]
  · simp [HasType, HasTypes, small, V.cls]
  · simp [HasType, HasTypes]

/-- `Optional[List[int]]` matches `List[int]`, although None is not a value of the latter. -/
theorem C16_optional_violated : typematch small.toClasses (.union [.list (.cls "int"), .cls "NoneType"]) (.list (.cls "int")) = .ok true ∧
    HasType small (.obj "NoneType") (.union [.list (.cls "int"), .cls "NoneType"]) ∧ ¬ HasType small (.obj "NoneType") (.list (.cls "int")) := by
  refine ⟨?_, ?_, ?_⟩
  · simp [typematch, matchHealed, tyEq, isAny, particular, isTyping, heal, isDefaultUnion]
  · simp [HasType, HasSome, small, V.cls]
  · simp [HasType]

/-- A case of `C16_partial`: lists of pairs of subclasses. -/
example : typematch small.toClasses (.list (.tuple [.cls "Sub", .cls "int"])) (.list (.tuple [.cls "Base", .cls "float"])) = .ok true ∧
    ¬ Bad (.list (.tuple [.cls "Sub", .cls "int"])) (.list (.tuple [.cls "Base", .cls "float"])) ∧
    HasType small (.list [.tuple [.obj "Sub", .obj "bool"]]) (.list (.tuple [.cls "Sub", .cls "int"])) := by
  refine ⟨?_, ?_, ?_⟩
  · simp [typematch, matchHealed, matchAll, tyEq, tyEqAll, isAny, particular, isTyping, heal, issub, small, bind, Except.bind]
  · intro h
    cases h with
    | optional h _ => obtain ⟨t, h | h⟩ := h <;> simp at h
    | list h =>
      cases h with
      | optional h _ => obtain ⟨t, h | h⟩ := h <;> simp at h
      | shape h _ => exact h (.inl ⟨rfl, by simp, by simp⟩)
      | tuple h1 h2 h3 =>
        rename_i t u i
        have := bad_simple h3
        match i, h1 with
        | 0, h1 => simp at h1; subst h1; simp [isTyping] at this
        | 1, h1 => simp at h1; subst h1; simp [isTyping] at this
        | _ + 2, h1 => simp at h1
  · simp only [HasType, HasTypes]
    refine ⟨_, rfl, fun v hv => ?_⟩
    rw [List.mem_singleton] at hv
    subst hv
    exact ⟨_, rfl, .inr ⟨by simp, _, _, rfl, by simp [small, V.cls], .inr ⟨by simp, _, _, rfl, by simp [small, V.cls], rfl⟩⟩⟩

/-! ### C17 -/

theorem match_of_eq {C : Classes} {T U : Ty} (h : tyEq T U = true) : typematch C T U = .ok true := by
  rw [typematch, if_pos (by simp [h])]

/-- A type matches itself. -/
theorem C17_refl (C : Classes) (T : Ty) : typematch C T T = .ok true := match_of_eq (tyEq_refl T)

/-- Any type matches Any. -/
theorem C17_any (C : Classes) (T : Ty) : typematch C T .any = .ok true := by
  rw [typematch, if_pos (by simp [isAny])]

/-- Lists match as their elements do. -/
theorem C17_list (C : Classes) (T U : Ty) : typematch C (.list T) (.list U) = typematch C T U := by
  by_cases h : tyEq T U = true
  · rw [match_of_eq h, match_of_eq (by rw [tyEq]; exact h)]
  · rw [typematch, if_neg (by simp [tyEq, h, isAny, particular]), if_pos (by rfl), if_pos (by rfl)]
    simp only [heal]
    rw [matchHealed]

/-- Dictionaries match as their keys and values do. -/
theorem C17_dict (C : Classes) (K T K' U : Ty) : typematch C (.dict K T) (.dict K' U) =
    (do if ← typematch C K K' then typematch C T U else .ok false) := by
  by_cases h : tyEq K K' = true ∧ tyEq T U = true
  · rw [match_of_eq h.1, match_of_eq h.2, match_of_eq (by rw [tyEq, h.1, h.2]; rfl)]
    rfl
  · rw [typematch, if_neg (by simp only [tyEq, isAny, particular, Bool.or_false, Bool.and_eq_true]; exact h), if_pos (by rfl), if_pos (by rfl)]
    simp only [heal]
    rw [matchHealed]

/-- Tuples of one type match as this type does. -/
theorem C17_tuple (C : Classes) (T U : Ty) : typematch C (.tuple [T]) (.tuple [U]) = typematch C T U := by
  by_cases h : tyEq T U = true
  · rw [match_of_eq h, match_of_eq (by simp [tyEq, tyEqAll, h])]
  · rw [typematch, if_neg (by simp [tyEq, tyEqAll, h, isAny, particular]), if_pos (by rfl), if_pos (by rfl)]
    simp only [heal]
    rw [matchHealed, matchAll]
    cases typematch C T U with
    | error e => rfl
    | ok b => cases b <;> simp [bind, Except.bind, matchAll]

/-- A class matches its superclasses, and an int matches a float. -/
theorem C17_class (C : Classes) (c d : String) : typematch C (.cls c) (.cls d) = .ok (c == d || (c == "int" && d == "float") || C.sub c d) := by
  rw [typematch]
  by_cases h : (c == d || (c == "int" && d == "float")) = true
  · rw [if_pos (by simpa [tyEq, isAny, particular] using h), h]
    rfl
  · rw [if_neg (by simpa [tyEq, isAny, particular] using h)]
    simp only [isTyping, Bool.false_eq_true, if_false, issub]
    have h' : (c == d || (c == "int" && d == "float")) = false := by simpa using h
    rw [h', Bool.false_or]

/-! ### C100: optional types -/

/-- `Optional[T]`. -/
def optional (T : Ty) : Ty := .union [T, .cls "NoneType"]

/-- A list, a dictionary or a tuple type matches its optional form.  Missing for the full property: the other types
(`C100_violated`, `C100_raises_violated`). -/
theorem C100_partial (C : Classes) (T K : Ty) (Ts : List Ty) : typematch C (.list T) (optional (.list T)) = .ok true ∧
    typematch C (.dict K T) (optional (.dict K T)) = .ok true ∧ typematch C (.tuple Ts) (optional (.tuple Ts)) = .ok true := by
  refine ⟨?_, ?_, ?_⟩
  · rw [optional, typematch, if_neg (by simp [tyEq, isAny, particular]), if_pos (by rfl), if_pos (by rfl)]
    simp only [heal, isDefaultUnion, tyEq, List.length_cons, List.length_nil, Nat.zero_add, Nat.reduceAdd, BEq.rfl, List.any_cons, List.any_nil,
      Bool.or_false, Bool.false_or, Bool.and_self, if_true, List.headD_cons]
    rw [matchHealed]
    exact C17_refl C T
  · rw [optional, typematch, if_neg (by simp [tyEq, isAny, particular]), if_pos (by rfl), if_pos (by rfl)]
    simp only [heal, isDefaultUnion, tyEq, List.length_cons, List.length_nil, Nat.zero_add, Nat.reduceAdd, BEq.rfl, List.any_cons, List.any_nil,
      Bool.or_false, Bool.false_or, Bool.and_self, if_true, List.headD_cons]
    rw [matchHealed, C17_refl C K]
    simp only [bind, Except.bind, if_true]
    exact C17_refl C T
  · rw [optional, typematch, if_neg (by simp [tyEq, isAny, particular]), if_pos (by rfl), if_pos (by rfl)]
    simp only [heal, isDefaultUnion, tyEq, List.length_cons, List.length_nil, Nat.zero_add, Nat.reduceAdd, BEq.rfl, List.any_cons, List.any_nil,
      Bool.or_false, Bool.false_or, Bool.and_self, if_true, List.headD_cons]
    rw [matchHealed]
    induction Ts with
    | nil => rw [matchAll]; simp
    | cons t ts ih => rw [matchAll, C17_refl C t]; exact ih

/-- No class matches its optional form. -/
theorem C100_violated (C : Classes) (c : String) : typematch C (.cls c) (optional (.cls c)) = .ok false := by
  rw [optional, typematch, if_neg (by simp [tyEq, isAny, particular])]
  simp [isTyping, heal, isDefaultUnion, tyEq]

/-- Comparing an other generic type with its optional form raises. -/
theorem C100_raises_violated (C : Classes) (o : String) (ts : List Ty) : typematch C (.other o ts) (optional (.other o ts)) = .error .notImplemented := by
  rw [optional, typematch, if_neg (by simp [tyEq, isAny, particular]), if_pos (by rfl), if_pos (by rfl)]
  simp [heal, isDefaultUnion, tyEq, matchHealed]

end DC.Types
