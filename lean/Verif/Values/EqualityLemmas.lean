import Verif.Values.Equality
import Verif.Values.EqualitySpec
import Mathlib.Tactic.Linarith
import Mathlib.Tactic.Ring
import Mathlib.Algebra.Order.Ring.Rat
/- Helper lemmas for Verif/Values/EqualityProps.lean. -/
namespace DC

theorem isclose_iff (a b : Rat) : isclose a b = true ↔ Close a b := by
  unfold isclose Close floatTol
  rw [decide_eq_true_iff]
  constructor
  · intro h
    rcases le_total (1 / 1000000000 * max a.abs b.abs) (1 / 1000000000 : Rat) with h1 | h1
    · left; rwa [max_eq_right h1] at h
    · right; rwa [max_eq_left h1] at h
  · rintro (h | h)
    · exact le_trans h (le_max_right _ _)
    · exact le_trans h (le_max_left _ _)

theorem abs_sub_comm' (a b : Rat) : (a - b).abs = (b - a).abs := by
  have : b - a = -(a - b) := by ring
  rw [this, Rat.abs_neg]

theorem Close.refl (a : Rat) : Close a a := by
  left; simp

theorem Close.symm {a b : Rat} (h : Close a b) : Close b a := by
  unfold Close at *
  rw [abs_sub_comm' b a, max_comm b.abs]; exact h

theorem eqKeep_iff (Γ : Env) (c : String) (k : Key) : eqKeep Γ c k = true ↔ DataAttr Γ c k := by
  cases k with
  | str s => simp [eqKeep, serKeep, DataAttr, and_assoc]
  | int i => simp [eqKeep, serKeep, DataAttr]

theorem lookup_isSome_iff (d : List (Key × V)) (k : Key) : (d.lookup k).isSome ↔ k ∈ keysOf d := by
  induction d with
  | nil => simp [keysOf]
  | cons kv d ih =>
    obtain ⟨k', v⟩ := kv
    simp only [List.lookup_cons, keysOf, List.map_cons, List.mem_cons] at *
    by_cases h : k = k'
    · subst h; simp
    · have : (k == k') = false := by simpa using h
      simp [this, h, ih]

theorem lookup_some_mem {d : List (Key × V)} {k : Key} {v : V} (h : d.lookup k = some v) : (k, v) ∈ d := by
  induction d with
  | nil => simp at h
  | cons kv d ih =>
    obtain ⟨k', v'⟩ := kv
    rw [List.lookup_cons] at h
    by_cases hk : k = k'
    · subst hk; simp at h; simp [h]
    · have : (k == k') = false := by simpa using hk
      rw [this] at h; simp [ih h]

theorem lookup_of_mem {d : List (Key × V)} {k : Key} {v : V} (hn : (keysOf d).Nodup) (h : (k, v) ∈ d) :
    d.lookup k = some v := by
  induction d with
  | nil => simp at h
  | cons kv d ih =>
    obtain ⟨k', v'⟩ := kv
    simp only [keysOf, List.map_cons, List.nodup_cons] at hn
    rw [List.lookup_cons]
    rcases List.mem_cons.1 h with h0 | hm
    · cases h0; simp
    · have : k ≠ k' := by
        rintro rfl
        exact hn.1 (List.mem_map.2 ⟨(k, v), hm, rfl⟩)
      have hk : (k == k') = false := by simpa using this
      rw [hk]; exact ih hn.2 hm

theorem lookup_filter (d : List (Key × V)) (p : Key → Bool) (k : Key) (hk : p k = true) :
    (d.filter (fun kv => p kv.1)).lookup k = d.lookup k := by
  induction d with
  | nil => rfl
  | cons kv d ih =>
    obtain ⟨k', v'⟩ := kv
    by_cases hp : p k' = true
    · simp only [List.filter_cons, hp, if_true, List.lookup_cons, ih]
    · have hne : (k == k') = false := by
        simp only [beq_eq_false_iff_ne]; rintro rfl; exact hp hk
      rw [List.filter_cons, if_neg hp, List.lookup_cons, hne, ih]

theorem lookup_filter_none (d : List (Key × V)) (p : Key → Bool) (k : Key) (hk : p k = false) :
    (d.filter (fun kv => p kv.1)).lookup k = none := by
  by_contra h
  obtain ⟨v, hv⟩ := Option.ne_none_iff_exists'.1 h
  have := lookup_some_mem hv
  simp [hk] at this

theorem WFL_iff (l : List V) : WFL l ↔ ∀ v ∈ l, WF v := by
  induction l with
  | nil => simp [WFL]
  | cons x xs ih => simp [WFL, ih]

theorem WFD_iff (d : List (Key × V)) : WFD d ↔ ∀ kv ∈ d, WF kv.2 := by
  induction d with
  | nil => simp [WFD]
  | cons x xs ih => obtain ⟨k, v⟩ := x; simp [WFD, ih]

theorem NoClsL_iff (l : List V) : NoClsL l ↔ ∀ v ∈ l, NoCls v := by
  induction l with
  | nil => simp [NoClsL]
  | cons x xs ih => simp [NoClsL, ih]

theorem NoClsD_iff (d : List (Key × V)) : NoClsD d ↔ ∀ kv ∈ d, NoCls kv.2 := by
  induction d with
  | nil => simp [NoClsD]
  | cons x xs ih => obtain ⟨k, v⟩ := x; simp [NoClsD, ih]

/-- `seqAll` as a statement on indices. -/
theorem seqAll_iff (Γ : Env) (a b : List V) :
    seqAll Γ a b = true ↔ ∀ (i : Nat) x y, a[i]? = some x → b[i]? = some y → dataEq Γ x y = true := by
  induction a generalizing b with
  | nil => simp [seqAll]
  | cons x xs ih =>
    cases b with
    | nil => simp [seqAll]
    | cons y ys =>
      simp only [seqAll, Bool.and_eq_true, ih]
      constructor
      · rintro ⟨h0, h⟩ i u w hu hw
        cases i with
        | zero => simp at hu hw; subst hu hw; exact h0
        | succ n => simp at hu hw; exact h n u w hu hw
      · intro h
        exact ⟨h 0 x y (by simp) (by simp), fun i u w hu hw => h (i+1) u w (by simpa) (by simpa)⟩

/-- `dictAll` as a statement on keys. -/
theorem dictAll_iff (Γ : Env) (keep : Key → Bool) (a b : List (Key × V)) :
    dictAll Γ keep a b = true ↔ ∀ k v, (k, v) ∈ a → keep k = true → ∃ w, b.lookup k = some w ∧ dataEq Γ v w = true := by
  induction a with
  | nil => simp [dictAll]
  | cons kv a ih =>
    obtain ⟨k', v'⟩ := kv
    by_cases hk : keep k' = true
    · simp only [dictAll, hk, if_true]
      cases hl : b.lookup k' with
      | none =>
        simp only [Bool.false_eq_true, false_iff, not_forall]
        refine ⟨k', v', by simp, hk, ?_⟩
        simp [hl]
      | some w =>
        simp only [Bool.and_eq_true, ih]
        constructor
        · rintro ⟨h0, h⟩ k v hkv hke
          rcases List.mem_cons.1 hkv with heq | hm
          · cases heq; exact ⟨w, hl, h0⟩
          · exact h k v hm hke
        · intro h
          obtain ⟨w', hw', hd⟩ := h k' v' (by simp) hk
          rw [hl] at hw'; cases hw'
          exact ⟨hd, fun k v hkv hke => h k v (by simp [hkv]) hke⟩
    · simp only [dictAll, hk, if_false, ih, Bool.false_eq_true]
      constructor
      · intro h k v hkv hke
        rcases List.mem_cons.1 hkv with heq | hm
        · cases heq; exact absurd hke hk
        · exact h k v hm hke
      · intro h k v hkv hke
        exact h k v (by simp [hkv]) hke

theorem lookup_filter_eqKeep {Γ : Env} {c : String} {b : List (Key × V)} {k : Key} {w : V} :
    (b.filter (fun kv => eqKeep Γ c kv.1)).lookup k = some w ↔ DataAttr Γ c k ∧ b.lookup k = some w := by
  by_cases hk : eqKeep Γ c k = true
  · rw [lookup_filter _ _ _ hk]; simp [(eqKeep_iff Γ c k).1 hk]
  · have hk' : eqKeep Γ c k = false := by simpa using hk
    rw [lookup_filter_none _ _ _ hk']
    simp [← eqKeep_iff, hk']

/-- size of values, for inductions on pairs of values. -/
theorem sizeOf_mem_dict {d : List (Key × V)} {k : Key} {v : V} (h : (k, v) ∈ d) : sizeOf v < sizeOf d := by
  have := List.sizeOf_lt_of_mem h
  simp at this; omega

theorem sizeOf_getElem? {l : List V} {i : Nat} {v : V} (h : l[i]? = some v) : sizeOf v < sizeOf l :=
  List.sizeOf_lt_of_mem (List.mem_of_getElem? h)

end DC
