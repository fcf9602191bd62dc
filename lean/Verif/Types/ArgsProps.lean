import Verif.Types.Args
/-
Specification and properties of default arguments (C21, C101, C102).
-/
namespace DC.Types
variable {δ : Type}

/-- A Python signature: positional parameters with their defaults, keyword-only parameters with their defaults. -/
structure Signature (δ : Type) where
  params : List (String × Option δ)
  kwonly : List (String × Option δ)

/-- What Python accepts: different names, and no parameter without default after one with a default. -/
def Signature.Valid (s : Signature δ) : Prop :=
  ((s.params ++ s.kwonly).map (·.1)).Nodup ∧ ∃ a b, s.params = a ++ b ∧ (∀ p ∈ a, p.2 = none) ∧ ∀ p ∈ b, p.2 ≠ none

/-- What `inspect.getfullargspec` gives on a signature: names, and the tuple of defaults if there is any. -/
def Signature.spec (s : Signature δ) : ArgSpec δ :=
  { args := s.params.map (·.1)
    defaults := if s.params.filterMap (·.2) = [] then none else some (s.params.filterMap (·.2))
    kwonly := s.kwonly }

/-- The parameters which are not reserved. -/
def shown (ps : List (String × Option δ)) : List (String × Option δ) := ps.filter fun p => p.1 ∉ reserved

/-- Those with a default. -/
def withDefault (ps : List (String × Option δ)) : List (String × δ) := ps.filterMap fun p => p.2.map fun d => (p.1, d)

theorem set_fresh {d : List (String × δ)} {k : String} {v : δ} (h : k ∉ d.map (·.1)) : Dict.set d k v = d ++ [(k, v)] := by
  induction d with
  | nil => rfl
  | cons p d ih =>
    obtain ⟨k', v'⟩ := p
    rw [List.map_cons, List.mem_cons, not_or] at h
    rw [Dict.set, if_neg (fun e => h.1 e.symm), ih h.2]
    rfl

theorem fst_inj {ps qs : List (String × Option δ)} (h : ((ps ++ qs).map (·.1)).Nodup) {q : String × Option δ} (hq : q ∈ qs) : q.1 ∉ ps.map (·.1) := by
  rw [List.map_append, List.nodup_append] at h
  intro hc
  exact h.2.2 _ hc _ (List.mem_map_of_mem hq) rfl

theorem filterMap_none {ps : List (String × Option δ)} (h : ∀ p ∈ ps, p.2 = none) : ps.filterMap (·.2) = [] := by
  rw [List.filterMap_eq_nil_iff]
  exact h

theorem filterMap_some : ∀ {ps : List (String × Option δ)}, (∀ p ∈ ps, p.2 ≠ none) → ps.map (·.2) = (ps.filterMap (·.2)).map some
  | [], _ => rfl
  | (n, none) :: ps, h => absurd rfl (h _ (.head _))
  | (n, some d) :: ps, h => by
    rw [List.filterMap_cons]
    simp only [List.map_cons]
    rw [filterMap_some fun p hp => h p (.tail _ hp)]

theorem splitLoop_cons (nargs ndef : Int) (defaults : Option (List δ)) (merge : Bool) (i : Nat) (a : String) (as : List String)
    (arguments : List (String × Option δ)) (dict : List (String × δ)) : splitLoop nargs ndef defaults merge i (a :: as) arguments dict =
    if a ∈ reserved then splitLoop nargs ndef defaults merge (i + 1) as arguments dict
    else if nargs - ndef ≤ (i : Int) then
      match defaults with
      | none => .error .typeError
      | some ds =>
        match Py.get ds (ndef - nargs + i) with
        | .error e => .error e
        | .ok d =>
          if merge then splitLoop nargs ndef defaults merge (i + 1) as (arguments ++ [(a, some d)]) dict
          else splitLoop nargs ndef defaults merge (i + 1) as arguments (Dict.set dict a d)
    else splitLoop nargs ndef defaults merge (i + 1) as (arguments ++ [(a, none)]) dict := by
  cases i <;> rfl

theorem loop_spec {sig : Signature δ} (hv : sig.Valid) {first : String × Option δ} (merge : Bool) :
    ∀ (todo done : List (String × Option δ)), sig.params = first :: (done ++ todo) →
    splitLoop (splitArgspecs sig.spec).1 (splitArgspecs sig.spec).2 sig.spec.defaults merge done.length (todo.map (·.1))
      (if merge then shown done else (shown done).filter fun p => p.2.isNone) (if merge then [] else withDefault (shown done)) =
    .ok (if merge then shown (done ++ todo) else (shown (done ++ todo)).filter fun p => p.2.isNone,
      if merge then [] else withDefault (shown (done ++ todo)))
  | [], done, _ => by simp [splitLoop]
  | (a, o) :: todo, done, hp => by
    have hp' : sig.params = first :: ((done ++ [(a, o)]) ++ todo) := by rw [hp]; simp
    have ih := loop_spec hv merge todo (done ++ [(a, o)]) hp'
    rw [List.append_assoc, List.singleton_append, List.length_append, List.length_singleton] at ih
    rw [List.map_cons, splitLoop_cons]
    have hfresh : a ∉ (done.map (·.1)) := by
      have h1 := hv.1
      rw [List.map_append, List.nodup_append] at h1
      have h2 := h1.1
      rw [hp, List.map_cons, List.nodup_cons] at h2
      exact fst_inj h2.2 (q := (a, o)) (.head _)
    by_cases hr : a ∈ reserved
    · rw [if_pos hr, ← ih]
      have hs : shown (done ++ [(a, o)]) = shown done := by
        unfold shown
        rw [List.filter_append, List.filter_cons_of_neg (by simpa using hr)]
        simp
      rw [hs]
    · rw [if_neg hr]
      have hs : shown (done ++ [(a, o)]) = shown done ++ [(a, o)] := by
        unfold shown
        rw [List.filter_append, List.filter_cons_of_pos (by simpa using hr)]
        simp
      rw [hs] at ih
      obtain ⟨-, pa, pb, hab, hna, hnb⟩ := hv
      have hdef : sig.params.filterMap (·.2) = pb.filterMap (·.2) := by
        rw [hab, List.filterMap_append, filterMap_none hna, List.nil_append]
      have hlen : (pb.filterMap (·.2)).length = pb.length := by
        have := congrArg List.length (filterMap_some hnb)
        simpa using this.symm
      have hn : (splitArgspecs sig.spec).1 = (pa.length + pb.length : Int) - 1 := by
        simp [splitArgspecs, Signature.spec, hab]
      have hd : (splitArgspecs sig.spec).2 = pb.length := by
        simp only [splitArgspecs, Signature.spec, hdef]
        split
        · rename_i d hd
          split at hd
          · simp at hd
          · simp only [Option.some.injEq] at hd
            rw [← hd, hlen]
        · rename_i hd
          split at hd
          · rename_i h0
            rw [← hlen, h0]
            rfl
          · simp at hd
      have hlen' : pa.length + pb.length = done.length + 1 + (todo.length + 1) := by
        have := congrArg List.length (hab.symm.trans hp)
        simp at this
        omega
      have hget : sig.params[done.length + 1]? = some (a, o) := by
        rw [hp]
        simp
      rw [hn, hd] at ih ⊢
      by_cases hge : pa.length ≤ done.length + 1
      · rw [if_pos (by omega)]
        have hbget : pb[done.length + 1 - pa.length]? = some (a, o) := by
          rw [hab, List.getElem?_append_right hge] at hget
          exact hget
        have hone : o ≠ none := hnb (a, o) (List.mem_of_getElem? hbget)
        obtain ⟨d, rfl⟩ := Option.ne_none_iff_exists'.1 hone
        have hdget : (pb.filterMap (·.2))[done.length + 1 - pa.length]? = some d := by
          have h1 : (pb.map (·.2))[done.length + 1 - pa.length]? = some (some d) := by
            rw [List.getElem?_map, hbget]
            rfl
          rw [filterMap_some hnb, List.getElem?_map] at h1
          cases h2 : (pb.filterMap (·.2))[done.length + 1 - pa.length]? with
          | none => rw [h2] at h1; simp at h1
          | some d' => rw [h2] at h1; simpa using h1
        have hne : pb.filterMap (·.2) ≠ [] := by
          intro h0
          rw [h0] at hdget
          simp at hdget
        have hdefs : sig.spec.defaults = some (pb.filterMap (·.2)) := by
          simp only [Signature.spec, hdef]
          rw [if_neg hne]
        have hpy : Py.get (pb.filterMap (·.2)) ((pb.length : Int) - ((pa.length + pb.length : Int) - 1) + (done.length : Nat)) = .ok d := by
          have : ((pb.length : Int) - ((pa.length + pb.length : Int) - 1) + (done.length : Nat)) = ((done.length + 1 - pa.length : Nat) : Int) := by omega
          rw [this, Py.get_nat, hdget]
        rw [hdefs] at ih ⊢
        dsimp only
        rw [hpy]
        dsimp only
        cases merge with
        | true => simpa using ih
        | false =>
          have hw : withDefault (shown done ++ [(a, some d)]) = withDefault (shown done) ++ [(a, d)] := by simp [withDefault]
          have hfr : a ∉ (withDefault (shown done)).map (·.1) := by
            intro hc
            apply hfresh
            rw [List.mem_map] at hc
            obtain ⟨x, hx, rfl⟩ := hc
            rw [withDefault, List.mem_filterMap] at hx
            obtain ⟨y, hy, hxy⟩ := hx
            rw [Option.map_eq_some_iff] at hxy
            obtain ⟨z, -, rfl⟩ := hxy
            exact List.mem_map_of_mem (List.mem_filter.1 hy).1
          simp only [Bool.false_eq_true, if_false] at ih ⊢
          rw [set_fresh hfr, ← hw, ← ih]
          simp
      · rw [if_neg (by omega)]
        have haget : pa[done.length + 1]? = some (a, o) := by
          rw [hab, List.getElem?_append_left (by omega)] at hget
          exact hget
        have ho : o = none := hna (a, o) (List.mem_of_getElem? haget)
        subst ho
        cases merge with
        | true => simpa using ih
        | false =>
          have hw : withDefault (shown done ++ [(a, none)]) = withDefault (shown done) := by simp [withDefault]
          simp only [Bool.false_eq_true, if_false] at ih ⊢
          rw [← ih, hw]
          simp

/-- For every signature with a first parameter (self), split_default_args gives the other positional parameters without default, and
associates to those with a default this default, in order and without the reserved names.  Missing for the full property: the first
parameter of functions without self (`C21_static_violated`), and keyword-only parameters (`C21_keyword_violated`). -/
theorem C21_partial {sig : Signature δ} (hv : sig.Valid) {first : String × Option δ} {params : List (String × Option δ)} (hp : sig.params = first :: params) :
    splitDefaultArgs sig.spec false = .ok ((shown params).filter fun p => p.2.isNone, withDefault (shown params)) := by
  have := loop_spec hv false params [] hp
  simp only [List.nil_append, Bool.false_eq_true, if_false, List.length_nil] at this
  unfold splitDefaultArgs
  have h2 : sig.spec.args.drop 1 = params.map (·.1) := by simp [Signature.spec, hp]
  rw [h2]
  exact this

/-- With merge, they are given in one list, in order.
Missing: static methods and arguments which are keyword-only (`C21_static_violated`, `C21_keyword_violated`). -/
theorem C21_merge_partial {sig : Signature δ} (hv : sig.Valid) {first : String × Option δ} {params : List (String × Option δ)}
    (hp : sig.params = first :: params) : splitDefaultArgs sig.spec true = .ok (shown params, []) := by
  have := loop_spec hv true params [] hp
  simp only [List.nil_append, if_true, List.length_nil] at this
  unfold splitDefaultArgs
  have h2 : sig.spec.args.drop 1 = params.map (·.1) := by simp [Signature.spec, hp]
  rw [h2]
  exact this

/-- `def f(x=1, y=2)`, without self: the default of x is lost. -/
theorem C21_static_violated : (Signature.mk [("x", some 1), ("y", some 2)] []).Valid ∧
    splitDefaultArgs (Signature.mk [("x", some 1), ("y", some 2)] []).spec false = .ok ([], [("y", 2)]) :=
  ⟨⟨by decide, [], _, rfl, by simp, by simp⟩, rfl⟩

/-- `def f(self, x, *, y=2)`: y has a default, but no entry. -/
theorem C21_keyword_violated : (Signature.mk [("self", none), ("x", none)] [("y", some 2)]).Valid ∧
    splitDefaultArgs (Signature.mk [("self", none), ("x", none)] [("y", some 2)]).spec false = .ok ([("x", none)], []) :=
  ⟨⟨by decide, [("self", none), ("x", none)], [], rfl, by simp, by simp⟩, rfl⟩

/-- A case of the theorems: `def f(self, a, b=1, progress_callback=2, c=3)`. -/
example : (Signature.mk [("self", none), ("a", none), ("b", some 1), ("progress_callback", some 2), ("c", some 3)] []).Valid ∧
    splitDefaultArgs (Signature.mk [("self", none), ("a", none), ("b", some 1), ("progress_callback", some 2), ("c", some 3)] []).spec false =
      .ok ([("a", none)], [("b", 1), ("c", 3)]) :=
  ⟨⟨by decide, [("self", none), ("a", none)], [("b", some 1), ("progress_callback", some 2), ("c", some 3)], rfl, by simp, by simp⟩, rfl⟩

/-! ### C102: attributes of schemas -/

theorem lookup_withDefault : ∀ {ps : List (String × Option δ)}, (ps.map (·.1)).Nodup → ∀ {n : String} {o : Option δ}, (n, o) ∈ ps →
    (withDefault ps).lookup n = o
  | [], _, n, o, h => by simp at h
  | (m, q) :: ps, hd, n, o, h => by
    rw [List.map_cons, List.nodup_cons] at hd
    rcases List.mem_cons.1 h with h | h
    · simp only [Prod.mk.injEq] at h
      obtain ⟨rfl, rfl⟩ := h
      cases o with
      | some d => simp [withDefault]
      | none =>
        have : withDefault ((n, none) :: ps) = withDefault ps := by simp [withDefault]
        rw [this, Dict.lookup_none]
        intro hc
        apply hd.1
        rw [List.mem_map] at hc
        obtain ⟨x, hx, rfl⟩ := hc
        rw [withDefault, List.mem_filterMap] at hx
        obtain ⟨y, hy, hxy⟩ := hx
        rw [Option.map_eq_some_iff] at hxy
        obtain ⟨z, -, rfl⟩ := hxy
        exact List.mem_map_of_mem (f := (·.1)) hy
    · have hne : (n == m) = false := by
        rw [beq_eq_false_iff_ne]
        intro e
        exact hd.1 (e ▸ List.mem_map_of_mem (f := (·.1)) h)
      have ih := lookup_withDefault hd.2 h
      cases q with
      | none => exact ih
      | some d =>
        have : withDefault ((m, some d) :: ps) = (m, d) :: withDefault ps := by simp [withDefault]
        rw [this, List.lookup_cons, hne]
        exact ih

theorem shown_nodup {ps : List (String × Option δ)} (h : (ps.map (·.1)).Nodup) : ((shown ps).map (·.1)).Nodup :=
  h.sublist ((List.filter_sublist (l := ps)).map _)

/-- The schema of a class, or of a method whose first parameter is self or cls, has as attributes the positional parameters that are
not reserved, in order, each with its default.  Missing for the full property: see `C102_static_violated`. -/
theorem C102_partial {sig : Signature δ} (hv : sig.Valid) {first : String × Option δ} {params : List (String × Option δ)}
    (hp : sig.params = first :: params) (hf : first.1 ∈ reserved) : memberAttributes sig.spec = .ok (shown params) := by
  rw [memberAttributes, C21_partial hv hp]
  dsimp only
  have hargs : sig.spec.args.filter (· ∉ reserved) = (shown params).map (·.1) := by
    simp only [Signature.spec, hp, List.map_cons]
    rw [List.filter_cons_of_neg (by simpa using hf), List.filter_map]
    rfl
  have hnd : ((shown params).map (·.1)).Nodup := by
    apply shown_nodup
    have h1 := hv.1
    rw [List.map_append, List.nodup_append] at h1
    have h2 := h1.1
    rw [hp, List.map_cons, List.nodup_cons] at h2
    exact h2.2
  rw [hargs, List.map_map]
  congr 1
  conv => rhs; rw [← List.map_id (shown params)]
  apply List.map_congr_left
  rintro ⟨n, o⟩ hn
  simp only [Function.comp, id]
  rw [lookup_withDefault hnd hn]

/-- `def f(x=1, y=2)`, without self: the schema shows x without its default. -/
theorem C102_static_violated : memberAttributes (Signature.mk [("x", some 1), ("y", some 2)] []).spec = .ok [("x", none), ("y", some 2)] := rfl

/-- `def f(self, x, *, y=2)`: the schema has no attribute y. -/
theorem C102_keyword_violated : memberAttributes (Signature.mk [("self", none), ("x", none)] [("y", some 2)]).spec = .ok [("x", none)] := rfl

/-! ### C101: the cache of specifications -/

/-- The cache of a history of methods with different names. -/
theorem cache_inv {ms : List (Method δ × Bool)} : ∀ {cache : List (String × ArgSpec δ)} {n : String} {s : ArgSpec δ}, (inspectAll cache ms).lookup n = some s →
    cache.lookup n = some s ∨ ∃ m ∈ ms, m.1.fullName = n ∧ m.1.spec = s := by
  induction ms with
  | nil => intro cache n s h; exact .inl h
  | cons x ms ih =>
    obtain ⟨m, merge⟩ := x
    intro cache n s h
    rw [inspectAll] at h
    rcases ih h with h1 | ⟨m', h1, h2⟩
    · rw [inspectArguments] at h1
      split at h1
      · exact .inl h1
      · dsimp only at h1
        rw [Dict.lookup_set] at h1
        split at h1
        · rename_i hn
          simp only [Option.some.injEq] at h1
          exact .inr ⟨(m, merge), .head _, hn.symm, h1⟩
        · exact .inl h1
    · exact .inr ⟨m', .tail _ h1, h2⟩

/-- After any history of inspections of methods none of which has the name of this one and other arguments, inspect_arguments gives
the arguments of this method.  Missing for the full property: methods of same name, `C101_violated`. -/
theorem C101_partial {ms : List (Method δ × Bool)} {m : Method δ} (h : ∀ x ∈ ms, x.1.fullName = m.fullName → x.1.spec = m.spec) (merge : Bool) :
    (inspectArguments (inspectAll [] ms) m merge).1 = splitDefaultArgs m.spec merge := by
  rw [inspectArguments]
  split
  · rename_i s hs
    rcases cache_inv hs with h1 | ⟨x, hx, h1, h2⟩
    · simp at h1
    · rw [← h2, h x hx h1]
  · rfl

/-- Two methods of same full name, such as methods of local classes of one function: the second one is given the arguments of the
first. -/
theorem C101_violated : ∃ m m' : Method Nat, (inspectArguments (inspectAll [] [(m, false)]) m' false).1 = .ok ([("a", none)], []) ∧
    splitDefaultArgs m'.spec false = .ok ([], [("b", 1)]) :=
  ⟨⟨"f.<locals>.C.m", (Signature.mk [("self", none), ("a", none)] []).spec⟩, ⟨"f.<locals>.C.m", (Signature.mk [("self", none), ("b", some 1)] []).spec⟩, rfl, rfl⟩

/-- A case of `C101_partial`. -/
example : (inspectArguments (inspectAll [] [(⟨"A.m", (Signature.mk [("self", none), ("a", none)] []).spec⟩, false)])
    ⟨"B.m", (Signature.mk [("self", none), ("b", some 1)] []).spec⟩ false).1 = .ok ([], [("b", 1)]) := rfl

end DC.Types
