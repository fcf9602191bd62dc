import Verif.Values.ClassNames
/- C210: the class found for a name. -/
namespace DC.Imp

variable {C : Type}

/-! ### Specification -/

/-- What a name stands for, without any cache: a member of a module if it has a dot, the class being after the last one, a
literal otherwise. -/
inductive Means (P : Interp C) : List Char → Except Fail (Option C) → Prop
  | member {m c : List Char} : '.' ∉ c → Means P (m ++ '.' :: c) (P.member m c)
  | literal {n : List Char} : '.' ∉ n → Means P n (P.literal n)

/-! ### Lemmas -/

theorem takeWhile_dot : ∀ (l r : List Char), '.' ∉ l → (l ++ '.' :: r).takeWhile (· != '.') = l ∧
    (l ++ '.' :: r).dropWhile (· != '.') = '.' :: r
  | [], r, _ => by simp
  | a :: l, r, h => by
    have ha : a ≠ '.' := fun e => h (by simp [e])
    have ih := takeWhile_dot l r (fun hm => h (by simp [hm]))
    simp [ha, ih]

theorem rsplit_dot {m c : List Char} (h : '.' ∉ c) : rsplit (m ++ '.' :: c) = (m, c) := by
  have e : (m ++ '.' :: c).reverse = c.reverse ++ '.' :: m.reverse := by simp
  obtain ⟨h1, h2⟩ := takeWhile_dot c.reverse m.reverse (by simpa using h)
  unfold rsplit
  rw [e, h1, h2]
  simp

theorem split_dot : ∀ (n : List Char), '.' ∈ n → ∃ m c, n = m ++ '.' :: c ∧ '.' ∉ c
  | [], h => by simp at h
  | a :: n, h => by
    by_cases hn : '.' ∈ n
    · obtain ⟨m, c, rfl, hc⟩ := split_dot n hn
      exact ⟨a :: m, c, rfl, hc⟩
    · have ha : a = '.' := by
        rcases List.mem_cons.1 h with h | h
        · exact h.symm
        · exact absurd h hn
      subst ha
      exact ⟨[], n, rfl, hn⟩

/-- Each class of the cache was told by `P`. -/
def Told (P : Interp C) (s : Mem C) : Prop := ∀ n c, s.cache.lookup n = some (some c) → Means P n (.ok (some c))

theorem Means.unique {P : Interp C} {n : List Char} {x y : Except Fail (Option C)} (hx : Means P n x) (hy : Means P n y) : x = y := by
  cases hx with
  | @member m c h =>
    generalize hn : m ++ '.' :: c = n at hy
    cases hy with
    | @member m' c' h' =>
      have := rsplit_dot (m := m) h
      rw [hn, rsplit_dot h', Prod.mk.injEq] at this
      rw [this.1, this.2]
    | literal h' => exact absurd (by rw [← hn]; simp) h'
  | @literal n h =>
    cases hy with
    | @member m c h' => exact absurd (by simp) h
    | literal _ => rfl

theorem means_some (P : Interp C) (n : List Char) : ∃ x, Means P n x := by
  by_cases h : '.' ∈ n
  · obtain ⟨m, c, rfl, hc⟩ := split_dot n h
    exact ⟨_, .member hc⟩
  · exact ⟨_, .literal h⟩

/-- What a call does, by cases. -/
theorem findClass_cases (P : Interp C) (s : Mem C) (n : List Char) :
    (∃ c, s.cache.lookup n = some (some c) ∧ findClass P s n = ({ s with limit := 3000 }, .ok (some c))) ∨
    ((s.cache.lookup n).join = none ∧ ∃ x, Means P n x ∧ ((∃ r, x = .ok r ∧ '.' ∈ n ∧
      findClass P s n = ({ cache := (n, r) :: s.cache, limit := 3000 }, x)) ∨
      ((x.isOk = false ∨ '.' ∉ n) ∧ findClass P s n = ({ s with limit := 3000 }, x)))) := by
  unfold findClass
  dsimp only
  cases h : (s.cache.lookup n).join with
  | some c =>
    left
    refine ⟨c, ?_, rfl⟩
    cases h' : s.cache.lookup n with
    | none => rw [h'] at h; simp at h
    | some x => rw [h'] at h; simp at h; rw [h]
  | none =>
    right
    refine ⟨rfl, ?_⟩
    by_cases hd : '.' ∈ n
    · rw [if_neg (not_not_intro hd)]
      obtain ⟨m, c, rfl, hc⟩ := split_dot n hd
      rw [rsplit_dot hc]
      refine ⟨_, .member hc, ?_⟩
      cases hm : P.member m c with
      | error e => exact .inr ⟨.inl rfl, rfl⟩
      | ok r => exact .inl ⟨r, rfl, hd, rfl⟩
    · rw [if_pos hd]
      exact ⟨_, .literal hd, .inr ⟨.inr hd, rfl⟩⟩

theorem isClassname_state (P : Interp C) (s : Mem C) (t : List Char) :
    (isClassname P s t).1 = s ∨ (isClassname P s t).1 = (findClass P s t).1 := by
  unfold isClassname
  split
  · right
    rcases h : findClass P s t with ⟨s', x | x⟩
    · dsimp only
      split <;> rfl
    · rfl
  · exact .inl rfl

theorem Told.find {P : Interp C} {s : Mem C} (h : Told P s) (n : List Char) : Told P (findClass P s n).1 := by
  rcases findClass_cases P s n with ⟨c, -, he⟩ | ⟨-, x, hx, ⟨r, rfl, -, he⟩ | ⟨-, he⟩⟩
  · rw [he]; exact h
  · rw [he]
    intro k c hk
    simp only [List.lookup_cons] at hk
    split at hk
    · rename_i hkn
      have : k = n := by simpa using hkn
      subst this
      cases hk
      exact hx
    · exact h k c hk
  · rw [he]; exact h

theorem Told.after {P : Interp C} {s : Mem C} (h : Told P s) (c : Call) : Told P (c.after P s) := by
  cases c with
  | find n => exact h.find n
  | text t =>
    show Told P (isClassname P s t).1
    rcases isClassname_state P s t with e | e
    · rw [e]; exact h
    · rw [e]; exact h.find t

theorem Told.all {P : Interp C} : ∀ (calls : List Call) {s : Mem C}, Told P s → Told P (afterAll (calls.map fun c => (P, c)) s)
  | [], _, h => h
  | c :: calls, _, h => Told.all calls (h.after c)

/-- A class which was found remains. -/
theorem keeps (P : Interp C) {s : Mem C} {n : List Char} {c : C} (h : s.cache.lookup n = some (some c)) (call : Call) :
    (call.after P s).cache.lookup n = some (some c) := by
  have key : ∀ k, (findClass P s k).1.cache.lookup n = some (some c) := by
    intro k
    rcases findClass_cases P s k with ⟨c', -, he⟩ | ⟨hj, x, -, ⟨r, -, -, he⟩ | ⟨-, he⟩⟩
    · rw [he]; exact h
    · rw [he]
      simp only [List.lookup_cons]
      split
      · rename_i hnk
        have : n = k := by simpa using hnk
        subst this
        rw [h] at hj
        simp at hj
      · exact h
    · rw [he]; exact h
  cases call with
  | find k => exact key k
  | text t =>
    show (isClassname P s t).1.cache.lookup n = _
    rcases isClassname_state P s t with e | e
    · rw [e]; exact h
    · rw [e]; exact key t

theorem keeps_all {n : List Char} {c : C} : ∀ (calls : List (Interp C × Call)) {s : Mem C}, s.cache.lookup n = some (some c) →
    (afterAll calls s).cache.lookup n = some (some c)
  | [], _, h => h
  | (P, call) :: calls, _, h => keeps_all calls (keeps P h call)

/-! ### C210 -/

/-- What is found for a name is what it stands for: the member of the module named before its last dot, or a literal if it has
no dot.  It does not depend on the calls made before. -/
theorem C210_history (P : Interp C) (calls : List Call) (limit : Nat) (n : List Char) :
    Means P n (findClass P (afterAll (calls.map fun c => (P, c)) { limit := limit }) n).2 := by
  have ht : Told P (afterAll (calls.map fun c => (P, c)) { limit := limit }) :=
    Told.all calls (fun n c h => by simp at h)
  rcases findClass_cases P (afterAll (calls.map fun c => (P, c)) { limit := limit }) n with
    ⟨c, hc, he⟩ | ⟨-, x, hx, ⟨r, rfl, -, he⟩ | ⟨-, he⟩⟩
  · rw [he]; exact ht n c hc
  · rw [he]; exact hx
  · rw [he]; exact hx

/-- The name of a member of a module leads to this member. -/
theorem C210_named (P : Interp C) (calls : List Call) (limit : Nat) {m c : List Char} (hc : '.' ∉ c) :
    (findClass P (afterAll (calls.map fun c => (P, c)) { limit := limit }) (m ++ '.' :: c)).2 = P.member m c :=
  (C210_history P calls limit _).unique (.member hc)

/-- Once a class was found for a name with a dot, it is the one found ever after, even if the interpreter changes. -/
theorem C210_stays (P P' : Interp C) (s : Mem C) {n : List Char} (hd : '.' ∈ n) {c : C} (h : (findClass P s n).2 = .ok (some c))
    (calls : List (Interp C × Call)) : (findClass P' (afterAll calls (findClass P s n).1) n).2 = .ok (some c) := by
  have hk : (findClass P s n).1.cache.lookup n = some (some c) := by
    rcases findClass_cases P s n with ⟨c', hc', he⟩ | ⟨-, x, hx, ⟨r, rfl, -, he⟩ | ⟨hn, he⟩⟩
    · rw [he] at h ⊢
      simp only [Except.ok.injEq, Option.some.injEq] at h
      rw [← h]; exact hc'
    · rw [he] at h ⊢
      simp only [Except.ok.injEq] at h
      subst h
      simp
    · rw [he] at h
      subst h
      rcases hn with hn | hn
      · simp [Except.isOk, Except.toBool] at hn
      · exact absurd hd hn
  have := keeps_all calls hk
  rcases findClass_cases P' (afterAll calls (findClass P s n).1) n with ⟨c', hc', he⟩ | ⟨hj, -⟩
  · rw [he]
    rw [this] at hc'
    simp only [Option.some.injEq] at hc'
    rw [hc']
  · rw [this] at hj
    simp at hj

/-- A failure is not remembered: the same name is found later, if by then it stands for a class. -/
theorem C210_again (P P' : Interp C) (s : Mem C) {n : List Char} {e : Fail} (h : (findClass P s n).2 = .error e)
    {x : Except Fail (Option C)} (hx : Means P' n x) : (findClass P' (findClass P s n).1 n).2 = x := by
  rcases findClass_cases P s n with ⟨c, -, he⟩ | ⟨hj, y, -, ⟨r, rfl, -, he⟩ | ⟨-, he⟩⟩
  · rw [he] at h; simp at h
  · rw [he] at h; simp at h
  · rw [he]
    dsimp only
    rcases findClass_cases P' { s with limit := 3000 } n with ⟨c, hc, -⟩ | ⟨-, z, hz, ⟨r, rfl, -, he'⟩ | ⟨-, he'⟩⟩
    · dsimp only at hc
      rw [hc] at hj
      simp at hj
    · rw [he']; exact hz.unique hx
    · rw [he']; exact hz.unique hx

/-- A text is read as itself if it has no dot, starts with a dot, or stands for nothing because the module is not found, has no
such member, or its name is ill-formed; otherwise it is read as what it stands for.  Missing: texts naming a module whose
import raises any other exception (`C210_text_violated`). -/
theorem C210_text_partial (P : Interp C) (calls : List Call) (limit : Nat) (t : List Char) {x : Except Fail (Option C)}
    (hx : Means P t x) (hc : ∀ e, x = .error e → e ≠ .other) :
    (isClassname P (afterAll (calls.map fun c => (P, c)) { limit := limit }) t).2 =
      .ok (if '.' ∈ t ∧ t.head? ≠ some '.' then x.toOption else none) := by
  have h := (C210_history P calls limit t).unique hx
  unfold isClassname
  split
  · rcases hf : findClass P (afterAll (calls.map fun c => (P, c)) { limit := limit }) t with ⟨s, e | r⟩
    · rw [hf] at h
      dsimp only at h ⊢
      rw [if_pos, ← h]
      · rfl
      · have := hc e h.symm
        cases e <;> first | rfl | exact absurd rfl this
    · rw [hf] at h
      dsimp only at h ⊢
      rw [← h]
      rfl
  · rfl

/-- A text which names a module whose import fails in an other way cannot be read. -/
theorem C210_text_violated (P : Interp C) (calls : List Call) (limit : Nat) {a : Char} {m c : List Char} (ha : a ≠ '.') (hc : '.' ∉ c)
    (h : P.member (a :: m) c = .error .other) :
    (isClassname P (afterAll (calls.map fun c => (P, c)) { limit := limit }) (a :: m ++ '.' :: c)).2 = .error .other := by
  have e := C210_named P calls limit (m := a :: m) hc
  rw [h] at e
  unfold isClassname
  rw [if_pos (by simp [ha])]
  rcases hf : findClass P (afterAll (calls.map fun c => (P, c)) { limit := limit }) (a :: m ++ '.' :: c) with ⟨s, x | r⟩
  · rw [hf] at e
    cases e
    rfl
  · rw [hf] at e
    cases e

/-- Finding a class leaves the recursion limit as it is if it is 3000.  Missing: the other limits (`C210_limit_violated`). -/
theorem C210_limit_partial (P : Interp C) (s : Mem C) (h : s.limit = 3000) (call : Call) : (call.after P s).limit = s.limit := by
  have key : ∀ n, (findClass P s n).1.limit = 3000 := by
    intro n
    rcases findClass_cases P s n with ⟨c, -, he⟩ | ⟨-, x, -, ⟨r, -, -, he⟩ | ⟨-, he⟩⟩ <;> rw [he]
  cases call with
  | find n => rw [h]; exact key n
  | text t =>
    show (isClassname P s t).1.limit = _
    rcases isClassname_state P s t with e | e
    · rw [e]
    · rw [e, h]; exact key t

/-- Finding a class, whatever its name, sets the recursion limit to 3000: a user who had set a greater one for deep objects loses
it. -/
theorem C210_limit_violated (P : Interp C) (s : Mem C) (n : List Char) : (findClass P s n).1.limit = 3000 := by
  rcases findClass_cases P s n with ⟨c, -, he⟩ | ⟨-, x, -, ⟨r, -, -, he⟩ | ⟨-, he⟩⟩ <;> rw [he]

/-- An interpreter with a module `a.b` which has a class `C` and a member which is `None`, and a module `bad` which cannot be
imported. -/
def exInterp : Interp Nat where
  member m c := if m = "a.b".toList then
      if c = ['C'] then .ok (some 1) else if c = ['N'] then .ok none else .error .attributeError
    else if m = "bad".toList then .error .other else .error .moduleNotFound
  literal _ := .error .other

example : (findClass exInterp (afterAll [(exInterp, .text "a.b.C".toList), (exInterp, .find "x.y".toList)] {}) "a.b.C".toList).2 =
    .ok (some 1) := C210_named exInterp [.text "a.b.C".toList, .find "x.y".toList] 1000 (m := "a.b".toList) (c := ['C']) (by decide)
example : (isClassname exInterp {} "version 1.2".toList).2 = .ok none ∧ (isClassname exInterp {} "a.b.C".toList).2 = .ok (some (some 1)) ∧
    (isClassname exInterp {} "a.b.D".toList).2 = .ok none ∧ (isClassname exInterp {} "bad.D".toList).2 = .error .other := by decide +kernel
example : (findClass exInterp {} "x.y".toList).2 = .error .moduleNotFound ∧
    (findClass { exInterp with member := fun _ _ => .ok (some 5) } (findClass exInterp {} "x.y".toList).1 "x.y".toList).2 = .ok (some 5) :=
  ⟨by decide +kernel, C210_again exInterp _ {} (e := .moduleNotFound) (by decide +kernel) (.member (m := ['x']) (c := ['y']) (by decide))⟩
example : (findClass { exInterp with member := fun _ _ => .error .other } (findClass exInterp {} "a.b.C".toList).1 "a.b.C".toList).2 =
    .ok (some 1) := C210_stays exInterp _ {} (by decide) (by decide +kernel) []
example : (findClass exInterp { limit := 100000 } "a.b.C".toList).1.limit = 3000 := C210_limit_violated _ _ _

end DC.Imp
