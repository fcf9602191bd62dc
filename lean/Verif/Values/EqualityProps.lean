import Verif.Values.EqualityMain
/- Property theorems on data equality, `==` and hash: C01, C02, C03, C04, C64, C65, C66. -/
namespace DC

/-! ### Concrete environment and values for the examples and counterexamples -/

/-- A class environment where no attribute is excluded but `name` (defaults of core.py 84-90).  Example only. -/
def demoEnv : Env := { info := fun _ => {} }

/-- Python's own hash of small integers is the identity (here for all), `int(x % 1e5)` is the remainder.
Example only. -/
def demoHash : HashFns where
  hNone := 7
  hInt := fun i => i
  hFlt := fun q => q.num + 1000003 * (q.den - 1)
  hName := fun s => s.length
  hCls := fun s => s.length
  hOther := fun n => n
  fold := fun i => i % 100000

/-- An object with a nested object, a list, a tuple, a dictionary and a float.  Example only. -/
def demoObj : V :=
  .obj "m.Car" [(.str "name", .str "n"), (.str "wheels", .list [.int 4, .tuple [.flt (1/2), .bool true]]),
    (.str "engine", .obj "m.Engine" [(.str "power", .flt 90)]), (.str "tags", .dict [(.str "a", .none), (.int 2, .int 3)])]

theorem demoObj_wf : WF demoObj := by
  simp [demoObj, WF, WFL, WFD, keysOf]

/-! ### C01 -/

/-- C01.  Every well formed value is data-equal to itself. -/
theorem C01_dataEq_refl (Γ : Env) (v : V) (hv : WF v) : dataEq Γ v v = true :=
  same_imp_dataEq (Same.refl Close.refl (sizeOf v + 1) v (by omega) hv) hv

/-- C01.  Every object is `==` to itself (and the comparison does not raise). -/
theorem C01_obj_eq_refl (Γ : Env) (H : HashFns) (c : String) (d : List (Key × V)) (hv : WF (.obj c d)) :
    objEq Γ H c d (.obj c d) = .ok true := by
  simp [objEq, C01_dataEq_refl Γ _ hv]

example : dataEq demoEnv demoObj demoObj = true := C01_dataEq_refl _ _ demoObj_wf

/-! ### C02 -/

/-- C02 is violated by the code: an extra key in the second dictionary is not seen. -/
theorem C02_symmetric_violated :
    ∃ v w : V, WF v ∧ WF w ∧ dataEq demoEnv v w = true ∧ dataEq demoEnv w v = false :=
  ⟨.dict [(.str "a", .int 1)], .dict [(.str "a", .int 1), (.str "b", .int 2)], by simp [WF, WFD, keysOf],
    by simp [WF, WFD, keysOf], by decide, by decide⟩

/-- C02 is violated by `==` too: two objects with `a == b` and `b != a`. -/
theorem C02_eq_symmetric_violated :
    ∃ (c : String) (d d' : List (Key × V)), WF (.obj c d) ∧ WF (.obj c d') ∧
      objEq demoEnv demoHash c d (.obj c d') = .ok true ∧ objEq demoEnv demoHash c d' (.obj c d) = .ok false :=
  ⟨"m.A", [(.str "x", .dict [(.str "a", .int 0)])], [(.str "x", .dict [(.str "a", .int 0), (.str "b", .int 0)])],
    by simp [WF, WFD, keysOf], by simp [WF, WFD, keysOf], by decide, by decide⟩

/-- C02, what holds: the two directions of `data_eq` together decide exactly "same data" (a symmetric notion) for
values without class objects.  Missing: one direction alone is not enough, see `C02_symmetric_violated`. -/
theorem C02_both_directions_iff_same_partial (Γ : Env) (v w : V) (hv : WF v) (hw : WF w) (hc : NoCls v) :
    (dataEq Γ v w = true ∧ dataEq Γ w v = true) ↔ Same Γ Close v w :=
  ⟨fun h => both_imp_same Γ (sizeOf v + 1) v w (by omega) hv hw hc h.1 h.2,
   fun h => ⟨same_imp_dataEq h hv, same_imp_dataEq (h.symm (fun _ _ => Close.symm)) hw⟩⟩

example : WF demoObj ∧ NoCls demoObj := ⟨demoObj_wf, by simp [demoObj, NoCls, NoClsL, NoClsD]⟩

/-- C02, what holds: `data_eq` is symmetric on values without dictionaries whose objects have the attributes set by
their class.  Missing: dictionaries (`C02_symmetric_violated`). -/
theorem C02_symmetric_partial (Γ : Env) (attrs : String → List Key) (v w : V) (hv : WF v) (hw : WF w)
    (uv : Uniform attrs v) (uw : Uniform attrs w) : dataEq Γ v w = dataEq Γ w v := by
  have h1 := symm_aux Γ attrs (sizeOf v + 1) v w (by omega) hv hw uv uw
  have h2 := symm_aux Γ attrs (sizeOf w + 1) w v (by omega) hw hv uw uv
  cases e1 : dataEq Γ v w <;> cases e2 : dataEq Γ w v <;> simp_all

example : Uniform (fun _ => [.str "name", .str "x"])
    (.list [.obj "m.A" [(.str "name", .str ""), (.str "x", .flt 1)], .tuple [.int 3]]) := by
  simp [Uniform, UniformL, UniformD, keysOf]

/-! ### C03 -/

/-- C03.  Objects that compare `==` have equal hashes. -/
theorem C03_eq_imp_hash (Γ : Env) (H : HashFns) (c : String) (d : List (Key × V)) (w : V)
    (h : objEq Γ H c d w = .ok true) : chooseHash Γ H (.obj c d) = chooseHash Γ H w := by
  cases w <;> simp only [objEq, Except.ok.injEq, Bool.false_eq_true, reduceCtorEq] at h
  split at h
  · simp at h
  · rename_i hne; exact not_not.1 hne

/-- C03.  Values holding the same data (exact floats) have equal hashes, whatever the insertion order of their
dictionaries and attributes, and the list or tuple nature of their sequences. -/
theorem C03_same_data_same_hash (Γ : Env) (H : HashFns) (v w : V) (hv : WF v) (hw : WF w)
    (h : Same Γ (· = ·) v w) : chooseHash Γ H v = chooseHash Γ H w := same_imp_hash H h hv hw

/-- C03.  The hash of a dictionary does not depend on the insertion order. -/
theorem C03_hash_insertion_order (Γ : Env) (H : HashFns) (d d' : List (Key × V)) (hv : WF (.dict d)) (hp : d.Perm d') :
    chooseHash Γ H (.dict d) = chooseHash Γ H (.dict d') := by
  simp only [chooseHash, hashesD_eq_map]
  refine dictHash_perm H ?_ (hp.map _)
  rw [List.map_map]; exact hv.1

/-- C03.  The hash of an object does not depend on the order in which its attributes were set. -/
theorem C03_hash_attribute_order (Γ : Env) (H : HashFns) (c : String) (d d' : List (Key × V)) (hp : d.Perm d') :
    chooseHash Γ H (.obj c d) = chooseHash Γ H (.obj c d') := by
  simp only [chooseHash, attrHashSum_eq]
  rw [(((hp.filter _).map _).map _).sum_eq]

/-- C03.  A list and a tuple with the same elements have the same hash. -/
theorem C03_hash_list_tuple (Γ : Env) (H : HashFns) (l : List V) :
    chooseHash Γ H (.list l) = chooseHash Γ H (.tuple l) := by simp [chooseHash]

example : ∃ d d' : List (Key × V), d ≠ d' ∧ WF (.dict d) ∧ d.Perm d' :=
  ⟨[(.str "b", .int 1), (.str "a", .int 2)], [(.str "a", .int 2), (.str "b", .int 1)], by simp,
    by simp [WF, WFD, keysOf], List.Perm.swap _ _ _⟩

example : objEq demoEnv demoHash "m.A" [(.str "name", .str "u"), (.str "x", .tuple [.int 1, .int 2])]
    (.obj "m.A" [(.str "x", .list [.int 1, .int 2]), (.str "name", .str "v")]) = .ok true := by decide

/-! ### C04 -/

/-- C04 is violated by the code: two objects of the same class whose floats are within the tolerance are data-equal
but not `==`, because the hash of a float is exact. -/
theorem C04_eq_iff_dataEq_violated :
    ∃ (c : String) (d d' : List (Key × V)), WF (.obj c d) ∧ WF (.obj c d') ∧
      dataEq demoEnv (.obj c d) (.obj c d') = true ∧ dataEq demoEnv (.obj c d') (.obj c d) = true ∧
      objEq demoEnv demoHash c d (.obj c d') = .ok false :=
  ⟨"m.A", [(.str "x", .flt 0)], [(.str "x", .flt (1 / 10000000000))], by simp [WF, WFD, keysOf],
    by simp [WF, WFD, keysOf], by decide +kernel, by decide +kernel, by decide +kernel⟩

/-- C04, what holds: objects holding the same data with equal floats are `==`.  Missing: floats that are only close. -/
theorem C04_same_data_eq_partial (Γ : Env) (H : HashFns) (c c' : String) (d d' : List (Key × V))
    (hv : WF (.obj c d)) (hw : WF (.obj c' d')) (h : Same Γ (· = ·) (.obj c d) (.obj c' d')) :
    objEq Γ H c d (.obj c' d') = .ok true := by
  have hc : c = c' := by
    cases h with
    | int h1 => simp [intVal] at h1
    | flt h1 => simp [fltVal] at h1
    | seq h1 => simp [seqItems] at h1
    | obj => rfl
  have hh := same_imp_hash H h hv hw
  have hclose : Same Γ Close (.obj c d) (.obj c' d') := h.mono (fun a b hab => hab ▸ Close.refl _)
  subst hc
  simp [objEq, hh, same_imp_dataEq hclose hv]

example : Same demoEnv (· = ·) (.obj "m.A" [(.str "x", .flt 1), (.str "name", .str "u")])
    (.obj "m.A" [(.str "name", .str "v"), (.str "x", .flt 1)]) := by
  refine .obj (fun k _ => by simp [keysOf]; tauto) (fun k x y hd hx hy => ?_)
  have : k = .str "x" := by
    have := lookup_some_mem hx
    simp at this
    rcases this with h | h
    · exact h.1
    · obtain ⟨s, hs, _, _, _, _, hn⟩ := hd
      rw [h.1] at hs; cases hs; exact absurd rfl hn
  subst this
  have hx' : x = .flt 1 := by simpa using hx.symm
  have hy' : y = .flt 1 := by
    have : (Key.str "x" == Key.str "name") = false := by decide
    simpa [List.lookup, this] using hy.symm
  subst hx' hy'
  exact .flt rfl rfl (by simp [unitOk]) rfl

/-! ### C64: classes are told apart -/

/-- C64 is violated by the code: any two class objects are data-equal, for instance `int` and `str`. -/
theorem C64_classes_distinguished_violated (Γ : Env) (n m : String) : dataEq Γ (.cls n) (.cls m) = true := by
  simp [dataEq]

/-- C64, what holds: a class is never data-equal to a value that is not a class.
Missing: two different classes (`C64_classes_distinguished_violated`). -/
theorem C64_class_vs_value_partial (Γ : Env) (n : String) (w : V) (h : dataEq Γ (.cls n) w = true) :
    ∃ m, w = .cls m := by
  cases w <;> simp [dataEq] at h
  exact ⟨_, rfl⟩

example : dataEq demoEnv (.cls "builtins.int") (.cls "builtins.str") = true := by decide

/-! ### C65: comparing with anything answers -/

/-- C65 is violated by the code: comparing an object to a list or a dictionary with `==` raises TypeError. -/
theorem C65_eq_total_violated (Γ : Env) (H : HashFns) (c : String) (d : List (Key × V)) (l : List V)
    (d' : List (Key × V)) :
    objEq Γ H c d (.list l) = .error .typeError ∧ objEq Γ H c d (.dict d') = .error .typeError := by
  simp [objEq]

/-- C65, what holds: comparing with any other value returns a boolean, `False` unless it is an object of the same
class.
Missing: lists and dictionaries (`C65_eq_total_violated`). -/
theorem C65_eq_total_partial (Γ : Env) (H : HashFns) (c : String) (d : List (Key × V)) (w : V)
    (hl : ∀ l, w ≠ .list l) (hd : ∀ d', w ≠ .dict d') :
    ∃ b, objEq Γ H c d w = .ok b ∧ (b = true → ∃ d', w = .obj c d') := by
  cases w with
  | list l => exact absurd rfl (hl l)
  | dict d' => exact absurd rfl (hd d')
  | obj c' d' =>
    simp only [objEq]
    split
    · exact ⟨false, rfl, by simp⟩
    · split
      · exact ⟨false, rfl, by simp⟩
      · refine ⟨_, rfl, fun h => ?_⟩
        simp only [dataEq, Bool.and_eq_true, beq_iff_eq] at h
        exact ⟨d', by rw [h.1]⟩
  | _ => exact ⟨false, rfl, by simp⟩

example : objEq demoEnv demoHash "m.A" [] (.str "x") = .ok false := by decide

/-! ### C66: transitivity -/

/-- C66 is violated by the code because of the float tolerance. -/
theorem C66_transitive_violated : ∃ u v w : V, dataEq demoEnv u v = true ∧ dataEq demoEnv v w = true ∧
    dataEq demoEnv u w = false :=
  ⟨.flt 0, .flt (9 / 10000000000), .flt (18 / 10000000000), by decide +kernel, by decide +kernel, by decide +kernel⟩

/-- C66, what holds: `data_eq` is transitive from float-free values.  Missing: floats (`C66_transitive_violated`). -/
theorem C66_transitive_partial (Γ : Env) (u v w : V) (hu : NoFloat u) (h1 : dataEq Γ u v = true)
    (h2 : dataEq Γ v w = true) : dataEq Γ u w = true := trans_aux Γ (sizeOf u + 1) u v w (by omega) hu h1 h2

example : NoFloat (.obj "m.A" [(.str "x", .list [.int 1, .dict [(.str "a", .str "b")]])]) := by
  simp [NoFloat, NoFloatL, NoFloatD]

end DC
