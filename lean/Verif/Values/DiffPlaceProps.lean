import Verif.Values.DiffProps
/-
Property C191: a change at one place shows only at this place in a diff.
-/
namespace DC

/-! ### Specification -/

/-- `ChangedAt x y q v w`: `w` is `v` with `y` in the place of `x`, reached by the keys and indices of the path `q` through dictionaries, lists and tuples. -/
inductive ChangedAt (x y : V) : List Key → V → V → Prop
  | here : ChangedAt x y [] x y
  | list (pre post : List V) {q : List Key} {v w : V} : ChangedAt x y q v w →
    ChangedAt x y (.int pre.length :: q) (.list (pre ++ v :: post)) (.list (pre ++ w :: post))
  | tuple (pre post : List V) {q : List Key} {v w : V} : ChangedAt x y q v w →
    ChangedAt x y (.int pre.length :: q) (.tuple (pre ++ v :: post)) (.tuple (pre ++ w :: post))
  | dict (pre post : List (Key × V)) (k : Key) {q : List Key} {v w : V} : ChangedAt x y q v w →
    ChangedAt x y (k :: q) (.dict (pre ++ (k, v) :: post)) (.dict (pre ++ (k, w) :: post))

/-! ### Proofs -/

section
variable {Γ : Env}

theorem diff_self {v : V} (hv : WF v) (p : List Key) : diff Γ v v p = .ok {} := diff_refl_aux Γ (sizeOf v + 1) v p (by omega) hv

theorem add_empty_left (D : Diff) : Diff.add {} D = D := by simp [Diff.add]
theorem add_empty_right (D : Diff) : Diff.add D {} = D := by simp [Diff.add]

theorem wfl_append {l m : List V} : WFL (l ++ m) ↔ WFL l ∧ WFL m := by
  induction l with
  | nil => simp [WFL]
  | cons a l ih => simp [WFL, ih, and_assoc]

theorem wfd_append {l m : List (Key × V)} : WFD (l ++ m) ↔ WFD l ∧ WFD m := by
  induction l with
  | nil => simp [WFD]
  | cons a l ih => simp [WFD, ih, and_assoc]

theorem wfd_of_mem {l : List (Key × V)} (h : WFD l) {k : Key} {v : V} (hm : (k, v) ∈ l) : WF v := by
  induction l with
  | nil => simp at hm
  | cons a l ih =>
    obtain ⟨k', v'⟩ := a
    simp only [WFD] at h
    rcases List.mem_cons.1 hm with e | e
    · cases e
      exact h.1
    · exact ih h.2 e

theorem seqLoop_same {l : List V} (h : WFL l) (i : Nat) (p : List Key) : seqLoop Γ i l l p = .ok {} := by
  induction l generalizing i with
  | nil => exact seqLoop_nil_left Γ i [] p
  | cons a l ih =>
    simp only [WFL] at h
    rw [seqLoop_cons, diff_self h.1, ih h.2]
    rfl

theorem seqLoop_changed {pre post : List V} (h : WFL pre) (h' : WFL post) (v w : V) (i : Nat) (p : List Key) :
    seqLoop Γ i (pre ++ v :: post) (pre ++ w :: post) p = diff Γ v w (p ++ [.int (i + pre.length : Nat)]) := by
  induction pre generalizing i with
  | nil =>
    simp only [List.nil_append, List.length_nil, Nat.add_zero]
    rw [seqLoop_cons, seqLoop_same h']
    cases diff Γ v w (p ++ [.int i]) with
    | error e => rfl
    | ok D => simp only [bind, Except.bind, pure, Except.pure, add_empty_right]
  | cons a pre ih =>
    simp only [WFL] at h
    simp only [List.cons_append, List.length_cons]
    rw [seqLoop_cons, diff_self h.1, ih h.2, show i + 1 + pre.length = i + (pre.length + 1) by omega]
    cases diff Γ v w (p ++ [.int ((i + (pre.length + 1) : Nat) : Int)]) with
    | error e => rfl
    | ok D => simp only [bind, Except.bind, pure, Except.pure, add_empty_left]

theorem dictLoop_same {other : List (Key × V)} {l : List (Key × V)} (hw : WFD l) (h : ∀ kv ∈ l, other.lookup kv.1 = some kv.2) (f : Bool) (p : List Key) :
    dictLoop Γ l other f p = .ok {} := by
  induction l with
  | nil => exact dictLoop_nil Γ other f p
  | cons a l ih =>
    obtain ⟨k, v⟩ := a
    simp only [WFD] at hw
    rw [dictLoop_cons_some Γ k v v l other f p (h (k, v) (by simp)), diff_self hw.1, ih hw.2 fun kv hkv => h kv (by simp [hkv])]
    rfl

theorem dictLoop_changed {other pre post : List (Key × V)} (hw : WFD pre) (hw' : WFD post) (h : ∀ kv ∈ pre, other.lookup kv.1 = some kv.2)
    (h' : ∀ kv ∈ post, other.lookup kv.1 = some kv.2) {k : Key} {v w : V} (hk : other.lookup k = some w) (f : Bool) (p : List Key) :
    dictLoop Γ (pre ++ (k, v) :: post) other f p = diff Γ v w (p ++ [k]) := by
  induction pre with
  | nil =>
    simp only [List.nil_append]
    rw [dictLoop_cons_some Γ k v w post other f p hk, dictLoop_same hw' h']
    cases diff Γ v w (p ++ [k]) with
    | error e => rfl
    | ok D => simp only [bind, Except.bind, pure, Except.pure, add_empty_right]
  | cons a pre ih =>
    obtain ⟨k', v'⟩ := a
    simp only [WFD] at hw
    simp only [List.cons_append]
    rw [dictLoop_cons_some Γ k' v' v' _ other f p (h (k', v') (by simp)), diff_self hw.1, ih hw.2 fun kv hkv => h kv (by simp [hkv])]
    cases diff Γ v w (p ++ [k]) with
    | error e => rfl
    | ok D => simp only [bind, Except.bind, pure, Except.pure, add_empty_left]

theorem changed_lookup {pre post : List (Key × V)} {k : Key} {v w : V} (hn : (keysOf (pre ++ (k, v) :: post)).Nodup) :
    (∀ kv ∈ pre, (pre ++ (k, w) :: post).lookup kv.1 = some kv.2) ∧ (∀ kv ∈ post, (pre ++ (k, w) :: post).lookup kv.1 = some kv.2) ∧
    (pre ++ (k, w) :: post).lookup k = some w := by
  have hn' : (keysOf (pre ++ (k, w) :: post)).Nodup := by simpa [keysOf] using hn
  exact ⟨fun kv h => lookup_of_mem hn' (by simp [h]), fun kv h => lookup_of_mem hn' (by simp [h]), lookup_of_mem hn' (by simp)⟩

end

/-! ### C191 -/

/-- If two values differ only by what is at one place, through dictionaries, lists and tuples, their diff is the one of what is at this place, with its path.  Missing for the full property:
objects (`C191_object_violated`). -/
theorem C191_partial {Γ : Env} {x y v w : V} {q : List Key} (h : ChangedAt x y q v w) (hv : WF v) (p : List Key) : diff Γ v w p = diff Γ x y (p ++ q) := by
  induction h generalizing p with
  | here => simp
  | @list pre post q v w _ ih =>
    simp only [WF, wfl_append, WFL] at hv
    rw [diff, seqDiff, if_neg (by simp), seqLoop_changed hv.1 hv.2.2, ih hv.2.1]
    simp
  | @tuple pre post q v w _ ih =>
    simp only [WF, wfl_append, WFL] at hv
    rw [diff, seqDiff, if_neg (by simp), seqLoop_changed hv.1 hv.2.2, ih hv.2.1]
    simp
  | @dict pre post k q v w _ ih =>
    simp only [WF, wfd_append, WFD] at hv
    obtain ⟨hn, h1, h2, h3⟩ := hv
    obtain ⟨g1, g2, g3⟩ := changed_lookup (w := w) hn
    rw [diff, dictDiff, if_neg (by simp), dictLoop_changed h1 h3 g1 g2 g3, ih h2]
    simp

/-- If two objects of a class, with a name, differ only by the value of one attribute, and do not have equal data, then their diff has the entries of the diff of the two values of this
attribute, but in the wrong order, and one more entry, which tells that the first object has no name. -/
theorem C191_object_violated {Γ : Env} {c : String} {pre post : List (Key × V)} {k : Key} {x y : V} (hw : WF (.obj c (pre ++ (k, x) :: post)))
    (hk : serKeep Γ c k = true) (hne : k ≠ .str "name") (hname : serKeep Γ c (.str "name") = true) (hm : .str "name" ∈ keysOf (pre ++ post)) (p : List Key)
    (hd : dataEq Γ (.obj c (pre ++ (k, x) :: post)) (.obj c (pre ++ (k, y) :: post)) = false) {D : Diff} (hD : diff Γ y x (p ++ [k]) = .ok D) :
    ∃ D', diff Γ (.obj c (pre ++ (k, x) :: post)) (.obj c (pre ++ (k, y) :: post)) p = .ok D' ∧ D'.different = D.different ∧ D'.types = D.types ∧
      D'.missing.Perm ((p ++ [.str "name"], true) :: D.missing) := by
  simp only [WF, wfd_append, WFD] at hw
  obtain ⟨hn, w1, w2, w3⟩ := hw
  -- The dictionaries which are compared.
  have hkk : (k == Key.str "name") = false := by simpa using hne
  have f1 : diffAttrs1 Γ c (pre ++ (k, x) :: post) = diffAttrs1 Γ c pre ++ (k, x) :: diffAttrs1 Γ c post := by
    simp [diffAttrs1, hk, hkk]
  have f2 : serializableDict Γ c (pre ++ (k, y) :: post) = serializableDict Γ c pre ++ (k, y) :: serializableDict Γ c post := by
    simp [serializableDict, hk]
  have f3 : ∀ l, diffAttrs1 Γ c l = (serializableDict Γ c l).filter fun kv => !(kv.1 == Key.str "name") := by
    intro l
    simp only [diffAttrs1, serializableDict, List.filter_filter]
    exact List.filter_congr fun kv _ => Bool.and_comm _ _
  have hnd : (keysOf pre ++ k :: keysOf post).Nodup := by simpa [keysOf] using hn
  -- The loop on a part of the second dictionary without the attribute.
  have loop : ∀ {l : List (Key × V)} {other : List (Key × V)}, WFD l → (keysOf l).Nodup → (∀ kv ∈ l, kv.1 ≠ .str "name" → other.lookup kv.1 = some kv.2) →
      other.lookup (.str "name") = none → ∀ tail D0, dictLoop Γ tail other true p = .ok D0 →
      ∃ D1, dictLoop Γ (l ++ tail) other true p = .ok D1 ∧ D1.different = D0.different ∧ D1.types = D0.types ∧
        D1.missing.Perm ((if .str "name" ∈ keysOf l then [(p ++ [.str "name"], true)] else []) ++ D0.missing) := by
    intro l
    induction l with
    | nil =>
      intro other _ _ _ _ tail D0 h0
      exact ⟨D0, h0, rfl, rfl, by simp [keysOf]⟩
    | cons a l ih =>
      obtain ⟨k', v'⟩ := a
      intro other hwl hnl hl hnone tail D0 h0
      simp only [WFD] at hwl
      have hnl' : k' ∉ keysOf l ∧ (keysOf l).Nodup := by simpa [keysOf] using hnl
      obtain ⟨D1, h1, e1, e2, e3⟩ := ih hwl.2 hnl'.2 (fun kv hkv => hl kv (by simp [hkv])) hnone tail D0 h0
      by_cases hk' : k' = .str "name"
      · subst hk'
        refine ⟨Diff.add { missing := [(p ++ [.str "name"], true)] } D1, ?_, by simp [Diff.add, e1], by simp [Diff.add, e2], ?_⟩
        · rw [List.cons_append, dictLoop_cons_none Γ _ _ _ _ _ _ hnone, h1]
          rfl
        · rw [if_neg hnl'.1] at e3
          rw [if_pos (by simp [keysOf])]
          simpa [Diff.add] using e3
      · refine ⟨D1, ?_, e1, e2, ?_⟩
        · rw [List.cons_append, dictLoop_cons_some Γ _ _ _ _ _ _ _ (hl (k', v') (by simp) hk'), diff_self hwl.1, h1]
          simp only [bind, Except.bind, pure, Except.pure, add_empty_left]
        · have : (Key.str "name" ∈ keysOf ((k', v') :: l)) ↔ Key.str "name" ∈ keysOf l := by
            simp only [keysOf, List.map_cons, List.mem_cons]
            exact ⟨fun h => h.resolve_left fun e => hk' e.symm, .inr⟩
          simp only [this]
          exact e3
  -- What is looked up in the first dictionary.
  have keep : ∀ kv ∈ serializableDict Γ c (pre ++ (k, x) :: post), kv.1 ≠ .str "name" → (diffAttrs1 Γ c (pre ++ (k, x) :: post)).lookup kv.1 = some kv.2 := by
    intro kv hkv hname'
    have hkv' : kv ∈ pre ++ (k, x) :: post := (List.mem_filter.1 hkv).1
    have hs : serKeep Γ c kv.1 = true := (List.mem_filter.1 hkv).2
    unfold diffAttrs1
    rw [lookup_filter _ (fun k => serKeep Γ c k && !(k == Key.str "name")) kv.1 (by simp [hs, hname'])]
    exact lookup_of_mem hn hkv'
  have hnone : (diffAttrs1 Γ c (pre ++ (k, x) :: post)).lookup (.str "name") = none := by
    unfold diffAttrs1
    exact lookup_filter_none _ (fun k => serKeep Γ c k && !(k == Key.str "name")) _ (by simp)
  have sub : ∀ {l : List (Key × V)}, WFD l → WFD (serializableDict Γ c l) := by
    intro l
    induction l with
    | nil => intro h; exact h
    | cons a l ih =>
      obtain ⟨k', v'⟩ := a
      intro h
      simp only [WFD] at h
      unfold serializableDict
      rw [List.filter_cons]
      split
      · exact ⟨h.1, ih h.2⟩
      · exact ih h.2
  have nod : ∀ {l : List (Key × V)}, (keysOf l).Nodup → (keysOf (serializableDict Γ c l)).Nodup := by
    intro l h
    exact List.Nodup.sublist (List.Sublist.map _ (List.filter_sublist)) h
  have memn : ∀ l : List (Key × V), Key.str "name" ∈ keysOf (serializableDict Γ c l) ↔ Key.str "name" ∈ keysOf l := by
    intro l
    simp only [keysOf, serializableDict, List.mem_map, List.mem_filter]
    constructor
    · rintro ⟨kv, ⟨h1, -⟩, h3⟩
      exact ⟨kv, h1, h3⟩
    · rintro ⟨kv, h1, h3⟩
      exact ⟨kv, ⟨h1, by rw [h3]; exact hname⟩, h3⟩
  have hnp := List.nodup_append.1 hnd
  have hn1 : (keysOf pre).Nodup := hnp.1
  have hn2 : (keysOf post).Nodup := (List.nodup_cons.1 hnp.2.1).2
  have sub1 : ∀ kv ∈ serializableDict Γ c pre, kv ∈ serializableDict Γ c (pre ++ (k, x) :: post) := by
    intro kv h
    simp only [serializableDict, List.mem_filter, List.mem_append] at h ⊢
    exact ⟨.inl h.1, h.2⟩
  have sub2 : ∀ kv ∈ serializableDict Γ c post, kv ∈ serializableDict Γ c (pre ++ (k, x) :: post) := by
    intro kv h
    simp only [serializableDict, List.mem_filter, List.mem_append, List.mem_cons] at h ⊢
    exact ⟨.inr (.inr h.1), h.2⟩
  have hkx : (diffAttrs1 Γ c (pre ++ (k, x) :: post)).lookup k = some x :=
    keep (k, x) (by simp [serializableDict, hk]) hne
  -- The second dictionary is the longer one.
  have hlen : (diffAttrs1 Γ c (pre ++ (k, x) :: post)).length < (serializableDict Γ c (pre ++ (k, y) :: post)).length := by
    have hlt : (diffAttrs1 Γ c (pre ++ post)).length < (serializableDict Γ c (pre ++ post)).length := by
      rw [f3]
      obtain ⟨kv, h1, h2⟩ := List.mem_map.1 ((memn _).2 hm)
      refine List.length_filter_lt_length_iff_exists.2 ⟨kv, h1, ?_⟩
      simp [h2]
    have e1 : diffAttrs1 Γ c (pre ++ post) = diffAttrs1 Γ c pre ++ diffAttrs1 Γ c post := by simp [diffAttrs1]
    have e2 : serializableDict Γ c (pre ++ post) = serializableDict Γ c pre ++ serializableDict Γ c post := by simp [serializableDict]
    rw [e1, e2] at hlt
    rw [f1, f2]
    simp only [List.length_append, List.length_cons] at hlt ⊢
    omega
  obtain ⟨D2, h2, a1, a2, a3⟩ := loop (sub w3) (nod hn2) (fun kv hkv h => keep kv (sub2 kv hkv) h) hnone [] {} (dictLoop_nil _ _ _ _)
  rw [List.append_nil] at h2
  have h3 : dictLoop Γ ((k, y) :: serializableDict Γ c post) (diffAttrs1 Γ c (pre ++ (k, x) :: post)) true p = .ok (Diff.add D D2) := by
    rw [dictLoop_cons_some Γ _ _ _ _ _ _ _ hkx, hD, h2]
    rfl
  obtain ⟨D3, h4, b1, b2, b3⟩ := loop (sub w1) (nod hn1) (fun kv hkv h => keep kv (sub1 kv hkv) h) hnone _ _ h3
  refine ⟨D3, ?_, ?_, ?_, ?_⟩
  · rw [diff, if_pos (by simp [isInst]), hd, if_neg (by simp), dictDiff, if_pos hlen, f2]
    exact h4
  · rw [b1]
    simp only [Diff.add, a1, List.append_nil]
  · rw [b2]
    simp only [Diff.add, a2, List.append_nil]
  · refine b3.trans ?_
    simp only [Diff.add, memn] at a3 ⊢
    have hdis : ¬ (Key.str "name" ∈ keysOf pre ∧ Key.str "name" ∈ keysOf post) := by
      rintro ⟨g1, g2⟩
      exact hnp.2.2 _ g1 _ (List.mem_cons_of_mem _ g2) rfl
    have hor : Key.str "name" ∈ keysOf pre ∨ Key.str "name" ∈ keysOf post := by
      simpa [keysOf] using hm
    rcases hor with g | g
    · have g' : Key.str "name" ∉ keysOf post := fun h => hdis ⟨g, h⟩
      rw [if_neg g'] at a3
      rw [if_pos g, a3.eq_nil]
      simp
    · have g' : Key.str "name" ∉ keysOf pre := fun h => hdis ⟨h, g⟩
      rw [if_pos g] at a3
      rw [if_neg g']
      simp only [List.nil_append]
      exact (List.Perm.append_left _ a3).trans List.perm_append_comm

/-! ### Examples -/

/-- A change in a list in a dictionary. -/
example (p : List Key) : diff demoEnv (.dict [(.str "a", .int 1), (.str "b", .list [.int 1, .str "z"])]) (.dict [(.str "a", .int 1), (.str "b", .list [.int 1, .str "t"])]) p =
    diff demoEnv (.str "z") (.str "t") (p ++ [.str "b", .int 1]) :=
  C191_partial (.dict [(.str "a", .int 1)] [] (.str "b") (.list [.int 1] [] .here)) (by simp [WF, WFD, WFL, keysOf]) p

/-- An object whose attribute `x` has changed. -/
example : ∃ D', diff demoEnv (.obj "m.A" [(.str "name", .str "n"), (.str "x", .int 1)]) (.obj "m.A" [(.str "name", .str "n"), (.str "x", .int 2)]) [] = .ok D' ∧
    D'.different = [([.str "x"], .int 2, .int 1)] ∧ ([.str "name"], true) ∈ D'.missing := by
  have hD : diff demoEnv (.int 2) (.int 1) ([] ++ [.str "x"]) = .ok { different := [([.str "x"], .int 2, .int 1)] } := by
    rw [diff_leaf _ _ _ _ (by simp [isPair])]
    rfl
  obtain ⟨D', h1, h2, -, h4⟩ := C191_object_violated (Γ := demoEnv) (c := "m.A") (pre := [(.str "name", .str "n")]) (post := []) (k := .str "x") (x := .int 1) (y := .int 2)
    (by simp [WF, WFD, keysOf]) (by decide) (by decide) (by decide) (by simp [keysOf]) [] (by decide) hD
  exact ⟨D', h1, h2, h4.mem_iff.2 (by simp)⟩

end DC
