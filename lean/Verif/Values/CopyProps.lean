import Verif.Values.CopyLemmas
import Verif.Values.EqualityProps
/- Property theorems on copies: C08, C71, C72. -/
namespace DC

/-- Classes whose constructor takes `name` and `x`.  Example only. -/
def copyEnv : Env := { info := fun _ => { initArgs := ["name", "x"] } }

/-- An object of class `m.A`.  Example only. -/
def mkA (name : String) (x : V) : V := .obj "m.A" [(.str "name", .str name), (.str "x", x)]

theorem occurs_obj_mkA {name : String} {x : V} {c : String} {d : List (Key × V)} (h : Occurs (mkA name x) (.obj c d)) :
    .obj c d = mkA name x ∨ Occurs x (.obj c d) := by
  unfold mkA at *
  cases h with
  | self => exact .inl rfl
  | obj hm h =>
    simp at hm
    rcases hm with ⟨_, rfl⟩ | ⟨_, rfl⟩
    · cases h
    · exact .inr h

/-- Deep copy of `mkA name x` when no equal object is in the memo. -/
theorem deepcopy_mkA (H : HashFns) (m m' : Memo) (name : String) (x x' : V)
    (hs : searchMemo copyEnv H m "m.A" [(.str "name", .str name), (.str "x", x)] = none)
    (hx : deepcopyValue copyEnv H m x = .ok (x', m')) :
    deepcopyValue copyEnv H m (mkA name x) =
      .ok (mkA name x', memoSet copyEnv H "m.A" [(.str "name", .str name), (.str "x", x)] (mkA name x') m') := by
  unfold mkA
  rw [deepcopyValue, hs]
  simp only [copyEnv]
  rw [deepcopyArgs_cons _ _ _ _ _ _ (.str name) (by rfl), deepcopyValue]
  simp only [bind, Except.bind]
  rw [deepcopyArgs_cons _ _ _ _ _ _ x (by rfl)]
  change deepcopyValue { info := fun _ => { initArgs := ["name", "x"] } } H m x = _ at hx
  rw [hx]
  simp only [bind, Except.bind]
  rw [deepcopyArgs_nil]

/-- Deep copy of `mkA name x` when an equal object is in the memo. -/
theorem deepcopy_mkA_hit (H : HashFns) (m : Memo) (name : String) (x w : V)
    (hs : searchMemo copyEnv H m "m.A" [(.str "name", .str name), (.str "x", x)] = some w) :
    deepcopyValue copyEnv H m (mkA name x) = .ok (w, m) := by
  unfold mkA
  rw [deepcopyValue, hs]

/-! ### C08 -/

/-- C08 is violated by the code: the deep copy of a tuple is a list. -/
theorem C08_copy_kind_violated (Γ : Env) (H : HashFns) : deepcopy Γ H (.tuple [.int 1]) = .ok (.list [.int 1]) := by
  simp [deepcopy, deepcopyValue, deepcopySeq, bind, Except.bind, Except.map]

/-- C08 is violated by the code: an object that is `==` to one already copied (dictionaries are compared one way) is
replaced by the copy of the latter, and the copy is not data-equal to the original. -/
theorem C08_copy_data_violated : ∃ v w : V, WF v ∧ NoTuple v ∧ Built copyEnv v ∧ deepcopy copyEnv demoHash v = .ok w ∧
    dataEq copyEnv v w = false := by
  refine ⟨.list [mkA "" (.dict [(.str "a", .int 0)]), mkA "" (.dict [(.str "a", .int 0), (.str "b", .int 0)])],
    .list [mkA "" (.dict [(.str "a", .int 0)]), mkA "" (.dict [(.str "a", .int 0)])],
    by simp [WF, WFL, WFD, keysOf, mkA], by simp [NoTuple, NoTupleL, NoTupleD, mkA], ?_, ?_, by decide⟩
  · intro c d h
    cases h with
    | list hm h =>
      simp only [List.mem_cons, List.not_mem_nil, or_false] at hm
      rcases hm with rfl | rfl
      all_goals
        rcases occurs_obj_mkA h with h | h
        · unfold mkA at h; cases h; simp [keysOf, copyEnv]
        · cases h with
          | dict hm h => simp at hm; (try rcases hm with hm | hm) <;> simp_all <;> cases h
  · unfold deepcopy
    rw [deepcopyValue, deepcopySeq, deepcopy_mkA demoHash [] [] "" _ (.dict [(.str "a", .int 0)]) (by rfl)
      (by simp [deepcopyValue, deepcopyDict, bind, Except.bind])]
    simp only [bind, Except.bind]
    rw [deepcopySeq]
    have : searchMemo copyEnv demoHash (memoSet copyEnv demoHash "m.A" [(.str "name", .str ""),
        (.str "x", .dict [(.str "a", .int 0)])] (mkA "" (.dict [(.str "a", .int 0)])) []) "m.A"
        [(.str "name", .str ""), (.str "x", .dict [(.str "a", .int 0), (.str "b", .int 0)])] =
        some (mkA "" (.dict [(.str "a", .int 0)])) := by rfl
    rw [deepcopy_mkA_hit _ _ _ _ _ this]
    simp [deepcopySeq, bind, Except.bind, Except.map, mkA]

/-- C08, what holds: when no two different objects inside the value are `==`, the deep copy is the value itself, tuples
becoming lists.  Missing: tuples stay tuples (`C08_copy_kind_violated`), colliding objects
(`C08_copy_data_violated`). -/
theorem C08_copy_exact_partial (Γ : Env) (H : HashFns) (v : V) (hv : WF v) (hb : Built Γ v)
    (sep : ∀ c d c' d', Occurs v (.obj c d) → Occurs v (.obj c' d') → objEq Γ H c d (.obj c' d') = .ok true →
      V.obj c d = V.obj c' d') : deepcopy Γ H v = .ok (listify v) := by
  obtain ⟨m, h, _⟩ := deepcopy_exact_aux Γ H v sep hb (fun x h => WF_occurs h hv) (sizeOf v + 1) v [] (by omega) .self
    (by simp)
  simp [deepcopy, h, Except.map]

/-- C08, what holds under the same hypotheses: the copy is data-equal to the original, both ways, and has the same
hash.
Missing: objects which hold dictionaries and compare equal one way only (`C08_copy_data_violated`). -/
theorem C08_copy_dataEq_partial (Γ : Env) (H : HashFns) (v w : V) (hv : WF v) (hb : Built Γ v)
    (sep : ∀ c d c' d', Occurs v (.obj c d) → Occurs v (.obj c' d') → objEq Γ H c d (.obj c' d') = .ok true →
      V.obj c d = V.obj c' d') (h : deepcopy Γ H v = .ok w) :
    dataEq Γ v w = true ∧ dataEq Γ w v = true ∧ chooseHash Γ H v = chooseHash Γ H w := by
  rw [C08_copy_exact_partial Γ H v hv hb sep] at h
  simp only [Except.ok.injEq] at h
  subst h
  have hs := same_listify Γ (sizeOf v + 1) v (by omega) hv
  have hc : Same Γ Close v (listify v) := hs.mono (fun a b hab => hab ▸ Close.refl _)
  have hw := WF_listify (sizeOf v + 1) v (by omega) hv
  exact ⟨same_imp_dataEq hc hv, same_imp_dataEq (hc.symm (fun _ _ => Close.symm)) hw, same_imp_hash H hs hv hw⟩

/-- C08, what holds without any hypothesis on equal sub-objects: the copy of a value without floats and dictionaries is
data-equal to it, whatever the sharing.  Missing: floats and dictionaries. -/
theorem C08_copy_dataEq_shared_partial (Γ : Env) (H : HashFns) (v : V) (hv : WF v) (hu : Uniform (argAttrs Γ) v)
    (hf : NoFloat v) : ∃ w, deepcopy Γ H v = .ok w ∧ dataEq Γ v w = true := by
  obtain ⟨w, m, h, hd, _⟩ := deepcopy_dataEq_aux Γ H (sizeOf v + 1) v [] (by omega) hv hu hf (by simp)
  exact ⟨w, by simp [deepcopy, h, Except.map], hd⟩

/-- C08, what holds: without tuples the copy is exactly the original.
Missing: tuples, which become lists (`C08_copy_kind_violated`). -/
theorem C08_copy_identity_partial (Γ : Env) (H : HashFns) (v : V) (hv : WF v) (hb : Built Γ v) (ht : NoTuple v)
    (sep : ∀ c d c' d', Occurs v (.obj c d) → Occurs v (.obj c' d') → objEq Γ H c d (.obj c' d') = .ok true →
      V.obj c d = V.obj c' d') : deepcopy Γ H v = .ok v := by
  rw [C08_copy_exact_partial Γ H v hv hb sep, listify_id v ht]

/-- A nested object meeting the hypotheses of the theorems above. -/
example : WF (mkA "u" (mkA "v" (.list [.int 1]))) ∧ Built copyEnv (mkA "u" (mkA "v" (.list [.int 1]))) ∧
    (∀ c d c' d', Occurs (mkA "u" (mkA "v" (.list [.int 1]))) (.obj c d) →
      Occurs (mkA "u" (mkA "v" (.list [.int 1]))) (.obj c' d') →
      objEq copyEnv demoHash c d (.obj c' d') = .ok true → V.obj c d = V.obj c' d') := by
  have occ : ∀ c d, Occurs (mkA "u" (mkA "v" (.list [.int 1]))) (.obj c d) →
      .obj c d = mkA "u" (mkA "v" (.list [.int 1])) ∨ .obj c d = mkA "v" (.list [.int 1]) := by
    intro c d h
    rcases occurs_obj_mkA h with h | h
    · exact .inl h
    · rcases occurs_obj_mkA h with h | h
      · exact .inr h
      · cases h with
        | list hm h => simp at hm; subst hm; cases h
  refine ⟨by simp [mkA, WF, WFD, WFL, keysOf], ?_, ?_⟩
  · intro c d h
    rcases occ c d h with h | h <;> (unfold mkA at h; cases h; simp [keysOf, copyEnv])
  · intro c d c' d' h h' he
    rcases occ c d h with h | h <;> rcases occ c' d' h' with h' | h'
    · rw [h, h']
    · exfalso; unfold mkA at h h'; cases h; cases h'; revert he; decide
    · exfalso; unfold mkA at h h'; cases h; cases h'; revert he; decide
    · rw [h, h']

example : Uniform (argAttrs copyEnv) (.list [mkA "u" (.int 1), mkA "v" (.int 1)]) ∧
    NoFloat (.list [mkA "u" (.int 1), mkA "v" (.int 1)]) := by
  simp [Uniform, UniformL, UniformD, mkA, keysOf, argAttrs, copyEnv, NoFloat, NoFloatL, NoFloatD]

/-! ### C71 -/

/-- C71 is violated by the code: of two sub-objects that only differ by their name, the second one is replaced by the
copy of the first one and loses its name. -/
theorem C71_copy_names_violated :
    deepcopy copyEnv demoHash (.list [mkA "first" (.int 1), mkA "second" (.int 1)]) =
      .ok (.list [mkA "first" (.int 1), mkA "first" (.int 1)]) := by
  unfold deepcopy
  rw [deepcopyValue, deepcopySeq, deepcopy_mkA demoHash [] [] "first" _ (.int 1) (by rfl) (by rw [deepcopyValue])]
  simp only [bind, Except.bind]
  rw [deepcopySeq]
  have : searchMemo copyEnv demoHash (memoSet copyEnv demoHash "m.A" [(.str "name", .str "first"), (.str "x", .int 1)]
      (mkA "first" (.int 1)) []) "m.A" [(.str "name", .str "second"), (.str "x", .int 1)] =
      some (mkA "first" (.int 1)) := by rfl
  rw [deepcopy_mkA_hit _ _ _ _ _ this]
  simp [deepcopySeq, bind, Except.bind, Except.map, mkA]

/-- C71, what holds: when no two different objects inside the value are `==`, every attribute of every object, names
included, is kept (tuples becoming lists).  Missing: equal objects with different names. -/
theorem C71_copy_names_partial (Γ : Env) (H : HashFns) (c : String) (d : List (Key × V)) (hv : WF (.obj c d))
    (hb : Built Γ (.obj c d))
    (sep : ∀ c₁ d₁ c₂ d₂, Occurs (.obj c d) (.obj c₁ d₁) → Occurs (.obj c d) (.obj c₂ d₂) →
      objEq Γ H c₁ d₁ (.obj c₂ d₂) = .ok true → V.obj c₁ d₁ = V.obj c₂ d₂) :
    ∃ d', deepcopy Γ H (.obj c d) = .ok (.obj c d') ∧
      ∀ s, d.lookup (.str "name") = some (.str s) → d'.lookup (.str "name") = some (.str s) := by
  refine ⟨listifyD d, C08_copy_exact_partial Γ H _ hv hb sep, ?_⟩
  intro s hs
  clear hv hb sep
  induction d with
  | nil => simp at hs
  | cons x xs ih =>
    obtain ⟨k, x⟩ := x
    rw [listifyD, List.lookup_cons]
    rw [List.lookup_cons] at hs
    split at hs
    · cases hs; rfl
    · exact ih hs

/-! ### C72 -/

/-- C72.  A shallow copy of an object whose attributes are its constructor arguments has the same class and attributes
(as do its sub-objects, which are copied too). -/
theorem C72_shallow_copy (Γ : Env) (c : String) (d : List (Key × V)) (hv : WF (.obj c d)) (hb : Built Γ (.obj c d)) :
    shallowValue Γ (.obj c d) = .ok (.obj c d) :=
  shallow_aux Γ _ hb (fun _ h => WF_occurs h hv) (sizeOf (V.obj c d) + 1) _ (by omega) .self

/-- C72, error branch: a constructor argument that is not an attribute makes the shallow copy fail with KeyError. -/
theorem C72_shallow_copy_missing (Γ : Env) (c : String) (d : List (Key × V)) (a : String) (rest : List String)
    (hi : (Γ.info c).initArgs = a :: rest) (ha : d.lookup (.str a) = none) :
    shallowValue Γ (.obj c d) = .error .keyError := by
  rw [shallowValue, hi, shallowArgs]
  split
  · rfl
  · rename_i h; rw [ha] at h; cases h

example : WF (mkA "u" (mkA "v" (.tuple [.int 1]))) := by simp [mkA, WF, WFD, WFL, keysOf]

end DC
