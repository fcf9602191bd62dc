import Verif.Values.DiffLemmas
import Verif.Values.EqualityProps
/- Property theorems on `diff`: C05, C06, C07, C67, C68, C69, C70. -/
namespace DC

/-! ### C05 -/

/-- C05.  The diff of a value with itself is computed and empty. -/
theorem C05_diff_self_empty (Γ : Env) (v : V) (p : List Key) (hv : WF v) :
    ∃ D, diff Γ v v p = .ok D ∧ D.isEmpty = true :=
  ⟨{}, diff_refl_aux Γ (sizeOf v + 1) v p (by omega) hv, by decide⟩

example : WF demoObj := demoObj_wf

/-! ### C06 -/

/-- C06.  An empty diff means equal data. -/
theorem C06_empty_diff_imp_dataEq (Γ : Env) (v w : V) (p : List Key) (D : Diff) (hv : WF v) (hw : WF w)
    (nv : Named Γ v) (nw : Named Γ w) (h : diff Γ v w p = .ok D) (he : D.isEmpty = true) : dataEq Γ v w = true :=
  diff_empty_aux Γ (sizeOf v + sizeOf w + 1) v w p D (by omega) hv hw nv nw h he

/-- An object, a list and a tuple with an empty diff. -/
example : ∃ v w : V, v ≠ w ∧ WF v ∧ WF w ∧ Named demoEnv v ∧ Named demoEnv w ∧ diff demoEnv v w [] = .ok {} := by
  refine ⟨.list [.obj "m.A" [(.str "name", .str "u"), (.str "x", .int 1)]],
    .tuple [.obj "m.A" [(.str "name", .str "v"), (.str "x", .int 1)]], by simp, ?_, ?_, ?_, ?_, ?_⟩
  · simp [WF, WFL, WFD, keysOf]
  · simp [WF, WFL, WFD, keysOf]
  · simp [Named, NamedL, NamedD, keysOf, demoEnv]
  · simp [Named, NamedL, NamedD, keysOf, demoEnv]
  · have : dataEq demoEnv (.obj "m.A" [(.str "name", .str "u"), (.str "x", .int 1)])
        (.obj "m.A" [(.str "name", .str "v"), (.str "x", .int 1)]) = true := by decide
    simp [diff, seqDiff, seqLoop, isInst, this, Diff.add, pure, Except.pure, bind, Except.bind]

/-! ### C07 -/

/-- C07, full statement: the missing entries of the diff of `a` and `b`, at the level of their keys, are exactly: the
keys of `a` absent from `b`, as missing in the second object, and the keys of `b` absent from `a`, as missing in the
first object. -/
def MissingExact (a b : List (Key × V)) (p : List Key) (D : Diff) : Prop :=
  ∀ k f, (p ++ [k], f) ∈ D.missing ↔
    (f = false ∧ k ∈ keysOf a ∧ k ∉ keysOf b) ∨ (f = true ∧ k ∈ keysOf b ∧ k ∉ keysOf a)

/-- C07 is violated by the code: with as many keys on both sides, the keys of the second dictionary that are absent
from the first one are never reported. -/
theorem C07_missing_both_sides_violated :
    ∃ (a b : List (Key × V)) (D : Diff), WF (.dict a) ∧ WF (.dict b) ∧
      diff demoEnv (.dict a) (.dict b) [] = .ok D ∧ ¬ MissingExact a b [] D := by
  refine ⟨[(.str "x", .int 1)], [(.str "y", .int 1)], { missing := [([.str "x"], false)] }, by simp [WF, WFD, keysOf],
    by simp [WF, WFD, keysOf], ?_, ?_⟩
  · rw [diff, dictDiff, if_neg (by simp), dictLoop_cons_none _ _ _ _ _ _ _ (by rfl), dictLoop_nil]
    rfl
  · intro h
    have := (h (.str "y") true).2 (by simp [keysOf])
    simp at this

/-- C07, what holds in all cases: only the longer dictionary is browsed (the first one when lengths are equal), its
keys absent from the other one are reported exactly.  Missing: the keys of the other dictionary. -/
theorem C07_missing_longer_partial (Γ : Env) (a b : List (Key × V)) (p : List Key) (D : Diff)
    (ha : WF (.dict a)) (hb : WF (.dict b)) (h : diff Γ (.dict a) (.dict b) p = .ok D) (k : Key) (f : Bool) :
    (p ++ [k], f) ∈ D.missing ↔
      if b.length > a.length then f = true ∧ k ∈ keysOf b ∧ k ∉ keysOf a
      else f = false ∧ k ∈ keysOf a ∧ k ∉ keysOf b := by
  simp only [WF] at ha hb
  rw [diff, dictDiff] at h
  have aux : ∀ (d other : List (Key × V)) (g : Bool), WFD d → WFD other → dictLoop Γ d other g p = .ok D →
      ((p ++ [k], f) ∈ D.missing ↔ f = g ∧ k ∈ keysOf d ∧ k ∉ keysOf other) := by
    intro d other g wd wo hl
    rw [(dictLoop_entries hl).2.2]
    constructor
    · rintro (⟨k', v, hm, hn, he⟩ | ⟨k', v, w, D', hm, hs, hd, he⟩)
      · simp only [Prod.mk.injEq, List.append_cancel_left_eq, List.cons.injEq, and_true] at he
        obtain ⟨rfl, rfl⟩ := he
        refine ⟨rfl, List.mem_map.2 ⟨_, hm, rfl⟩, fun hc => ?_⟩
        rw [← lookup_isSome_iff, hn] at hc; simp at hc
      · exfalso
        obtain ⟨q, hq, he'⟩ := (diff_entries_aux Γ (sizeOf v + sizeOf w + 1) v w _ D' (by omega)
          ((WFD_iff d).1 wd _ hm) ((WFD_iff other).1 wo _ (lookup_some_mem hs)) hd).2.2 _ he
        have := congrArg List.length he'
        simp at this
        exact hq this
    · rintro ⟨rfl, hk, hn⟩
      obtain ⟨⟨k', v⟩, hm, rfl⟩ := List.mem_map.1 hk
      refine .inl ⟨k', v, hm, ?_, rfl⟩
      rw [← lookup_isSome_iff] at hn
      exact Option.not_isSome_iff_eq_none.1 hn
  split at h
  · rename_i hl; rw [if_pos hl]; exact aux b a true hb.2 ha.2 h
  · rename_i hl; rw [if_neg hl]; exact aux a b false ha.2 hb.2 h

/-- C07, what holds: the full statement, when the keys of one dictionary are all keys of the other.
Missing: dictionaries with own keys on both sides (`C07_missing_both_sides_violated`). -/
theorem C07_missing_exact_partial (Γ : Env) (a b : List (Key × V)) (p : List Key) (D : Diff)
    (ha : WF (.dict a)) (hb : WF (.dict b)) (h : diff Γ (.dict a) (.dict b) p = .ok D)
    (hk : (∀ k ∈ keysOf a, k ∈ keysOf b) ∨ (∀ k ∈ keysOf b, k ∈ keysOf a)) : MissingExact a b p D := by
  intro k f
  rw [C07_missing_longer_partial Γ a b p D ha hb h k f]
  simp only [WF] at ha hb
  split
  · rename_i hl
    rcases hk with hk | hk
    · have := hk k; tauto
    · have := keys_subset_length hb.1 hk; omega
  · rename_i hl
    rcases hk with hk | hk
    · have hsub := List.subperm_of_subset ha.1 hk
      have hperm : (keysOf a).Perm (keysOf b) := hsub.perm_of_length_le (by simp [keysOf]; omega)
      have := hperm.mem_iff (a := k); tauto
    · have := hk k; tauto

example : ∃ a b : List (Key × V), a.length ≠ b.length ∧ WF (.dict a) ∧ WF (.dict b) ∧
    (∀ k ∈ keysOf a, k ∈ keysOf b) ∧ ∃ D, diff demoEnv (.dict a) (.dict b) [] = .ok D ∧ D.missing ≠ [] := by
  refine ⟨[(.str "x", .int 1)], [(.str "x", .int 1), (.str "y", .int 1)], by simp, by simp [WF, WFD, keysOf],
    by simp [WF, WFD, keysOf], by simp [keysOf], { missing := [([.str "y"], true)] }, ?_, by simp⟩
  rw [diff, dictDiff, if_pos (by simp), dictLoop_cons_some _ _ _ _ _ _ _ _ (by rfl),
    dictLoop_cons_none _ _ _ _ _ _ _ (by rfl), dictLoop_nil, diff_leaf _ _ _ _ (by simp [isPair])]
  rfl

/-! ### C67 -/

/-- C67 is violated by the code: `1` and `True` hold equal data both ways, but their diff reports different types. -/
theorem C67_dataEq_imp_empty_diff_violated :
    ∃ (v w : V) (D : Diff), WF v ∧ WF w ∧ dataEq demoEnv v w = true ∧ dataEq demoEnv w v = true ∧
      diff demoEnv v w [] = .ok D ∧ D.isEmpty = false :=
  ⟨.int 1, .bool true, { types := [([], .int 1, .bool true)] }, by simp [WF], by simp [WF], by decide, by decide,
    by simp [diff, isInst], by decide⟩

/-- C67, what holds: values with the same data have an empty diff if they hold neither boolean nor measure outside of
objects.  Missing: booleans against integers and measures against floats. -/
theorem C67_same_imp_empty_diff_partial (Γ : Env) (v w : V) (p : List Key) (hv : WF v) (hw : WF w) (hc : NoCls v)
    (nv : NoSub v) (nw : NoSub w) (h1 : dataEq Γ v w = true) (h2 : dataEq Γ w v = true) :
    diff Γ v w p = .ok {} :=
  same_diff_empty (both_imp_same Γ (sizeOf v + 1) v w (by omega) hv hw hc h1 h2) hv hw nv nw p

/-- C67, what holds: two objects of one class with `data_eq` in the direction of the diff have an empty diff.
Missing: values other than objects of one class (`C67_dataEq_imp_empty_diff_violated`). -/
theorem C67_objects_partial (Γ : Env) (c : String) (a b : List (Key × V)) (p : List Key)
    (h : dataEq Γ (.obj c a) (.obj c b) = true) : diff Γ (.obj c a) (.obj c b) p = .ok {} := by
  simp [diff, isInst, h]

example : ∃ v w : V, v ≠ w ∧ WF v ∧ WF w ∧ NoCls v ∧ NoSub v ∧ NoSub w ∧ dataEq demoEnv v w = true ∧
    dataEq demoEnv w v = true :=
  ⟨.dict [(.str "a", .list [.int 1]), (.str "b", .str "z")], .dict [(.str "b", .str "z"), (.str "a", .tuple [.int 1])],
    by simp, by simp [WF, WFD, WFL, keysOf], by simp [WF, WFD, WFL, keysOf], by simp [NoCls, NoClsD, NoClsL],
    by simp [NoSub, NoSubD, NoSubL], by simp [NoSub, NoSubD, NoSubL], by decide, by decide⟩

/-! ### C68 -/

/-- C68 is violated by the code: for two objects of the same class, the attribute `name` is removed from the first one
only, so that the second one is browsed against the first one: values are swapped, and `name` is reported as missing in
the first object though it has one. -/
theorem C68_value_order_violated :
    ∃ (a b : List (Key × V)) (D : Diff), WF (.obj "m.A" a) ∧ WF (.obj "m.A" b) ∧
      diff demoEnv (.obj "m.A" a) (.obj "m.A" b) [] = .ok D ∧
      ([.str "x"], .int 2, .int 1) ∈ D.different ∧ valueAt (.obj "m.A" a) [.str "x"] = some (.int 1) ∧
      valueAt (.obj "m.A" b) [.str "x"] = some (.int 2) ∧
      ([.str "name"], true) ∈ D.missing ∧ valueAt (.obj "m.A" a) [.str "name"] = some (.str "n") := by
  refine ⟨[(.str "name", .str "n"), (.str "x", .int 1)], [(.str "name", .str "n"), (.str "x", .int 2)],
    { different := [([.str "x"], .int 2, .int 1)], missing := [([.str "name"], true)] },
    by simp [WF, WFD, keysOf], by simp [WF, WFD, keysOf], ?_, by simp, ?_, ?_, by simp, ?_⟩
  · have h1 : dataEq demoEnv (.obj "m.A" [(.str "name", .str "n"), (.str "x", .int 1)])
        (.obj "m.A" [(.str "name", .str "n"), (.str "x", .int 2)]) = false := by decide
    have h2 : diffAttrs1 demoEnv "m.A" [(.str "name", .str "n"), (.str "x", .int 1)] = [(.str "x", .int 1)] := by rfl
    have h3 : serializableDict demoEnv "m.A" [(.str "name", .str "n"), (.str "x", .int 2)] =
        [(.str "name", .str "n"), (.str "x", .int 2)] := by rfl
    rw [diff, if_pos (by simp [isInst]), h1, if_neg (by simp), h2, h3, dictDiff, if_pos (by simp),
      dictLoop_cons_none _ _ _ _ _ _ _ (by rfl), dictLoop_cons_some _ _ _ _ _ _ _ _ (by rfl), dictLoop_nil,
      diff_leaf _ _ _ _ (by simp [isPair])]
    rfl
  · have : (Key.str "x" == Key.str "name") = false := by decide
    simp [valueAt, child, List.lookup, this]
  · have : (Key.str "x" == Key.str "name") = false := by decide
    simp [valueAt, child, List.lookup, this]
  · simp [valueAt, child, List.lookup]

/-- C68, what holds for all values: the two values of each entry are those found at its path in the two objects, in one
order or the other.  Missing: the order. -/
theorem C68_entries_located_partial (Γ : Env) (v w : V) (p : List Key) (D : Diff) (hv : WF v) (hw : WF w)
    (h : diff Γ v w p = .ok D) (e : List Key × V × V) (he : e ∈ D.different ∨ e ∈ D.types) :
    ∃ q, e.1 = p ++ q ∧ ((valueAt v q = some e.2.1 ∧ valueAt w q = some e.2.2) ∨
      (valueAt v q = some e.2.2 ∧ valueAt w q = some e.2.1)) := by
  have := diff_entries_aux Γ (sizeOf v + sizeOf w + 1) v w p D (by omega) hv hw h
  rcases he with he | he
  · obtain ⟨q, h1, h2, _⟩ := this.1 e he; exact ⟨q, h1, h2⟩
  · obtain ⟨q, h1, h2⟩ := this.2.1 e he; exact ⟨q, h1, h2⟩

/-- C68, what holds: the full statement for values made of base values, lists and tuples.
Missing: dictionaries and objects (`C68_value_order_violated`). -/
theorem C68_value_order_partial (Γ : Env) (v w : V) (p : List Key) (D : Diff) (hv : SeqOnly v)
    (h : diff Γ v w p = .ok D) (e : List Key × V × V) (he : e ∈ D.different ∨ e ∈ D.types) :
    ∃ q, e.1 = p ++ q ∧ valueAt v q = some e.2.1 ∧ valueAt w q = some e.2.2 := by
  have := diff_order_aux Γ (sizeOf v + sizeOf w + 1) v w p D (by omega) hv h
  rcases he with he | he
  · exact this.1 e he
  · exact this.2 e he

example : ∃ v w D, SeqOnly v ∧ diff demoEnv v w [] = .ok D ∧ D.different ≠ [] := by
  refine ⟨.list [.int 1, .tuple [.str "a"]], .list [.int 2, .list [.str "b"]], _, by simp [SeqOnly, SeqOnlyL],
    by simp [diff, seqDiff, seqLoop, isInst, leafSame, Diff.add, pure, Except.pure, bind, Except.bind]; rfl, by simp⟩

/-! ### C69 -/

/-- C69.  The two values of a 'different values' entry are not data-equal. -/
theorem C69_different_is_real (Γ : Env) (v w : V) (p : List Key) (D : Diff) (hv : WF v) (hw : WF w)
    (h : diff Γ v w p = .ok D) (e : List Key × V × V) (he : e ∈ D.different) : dataEq Γ e.2.1 e.2.2 = false := by
  obtain ⟨q, _, _, h3⟩ := (diff_entries_aux Γ (sizeOf v + sizeOf w + 1) v w p D (by omega) hv hw h).1 e he
  exact h3

example : ∃ v w D, WF v ∧ WF w ∧ diff demoEnv v w [] = .ok D ∧ D.different ≠ [] :=
  ⟨.int 1, .int 2, { different := [([], .int 1, .int 2)] }, by simp [WF], by simp [WF],
    by simp [diff, isInst, leafSame], by simp⟩

/-! ### C70 -/

/-- C70 is violated by the code: two different classes, or two files of one kind with different contents, make `diff`
raise NotImplementedError. -/
theorem C70_diff_total_violated (Γ : Env) (p : List Key) (n m : String) (hne : n ≠ m) (b : Bool) (f t t' : String)
    (ht : t ≠ t') :
    diff Γ (.cls n) (.cls m) p = .error .notImplemented ∧
    diff Γ (.file b f t) (.file b f t') p = .error .notImplemented := by
  constructor
  · rw [diff_leaf _ _ _ _ (by simp [isPair])]; simp [leafDiff, isInst, leafSame, hne]
  · rw [diff_leaf _ _ _ _ (by simp [isPair])]; simp [leafDiff, isInst, leafSame, ht]

/-- C70, what holds: the diff of values without class objects and files is computed.  Missing: these two kinds. -/
theorem C70_diff_total_partial (Γ : Env) (v w : V) (p : List Key) (hv : NoOpaque v) (hw : NoOpaque w) :
    ∃ D, diff Γ v w p = .ok D :=
  diff_total_aux Γ (sizeOf v + sizeOf w + 1) v w p (by omega) hv hw

example : NoOpaque demoObj := by simp [demoObj, NoOpaque, NoOpaqueL, NoOpaqueD]

end DC
