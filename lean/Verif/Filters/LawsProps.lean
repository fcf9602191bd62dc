import Verif.Filters.Props
/-
Property C177: laws of filters.
-/
namespace DC

/-! ### Specification -/

/-- The object is kept by the filters. -/
def FilterKeeps (fuel : Nat) (fs : List PyFilter) (op : String) (v : V) : Prop :=
  fs ≠ [] ∧ (op = "and" → ∀ f ∈ fs, Sat fuel f v) ∧ (op ≠ "and" → ∃ f ∈ fs, Sat fuel f v)

/-- The two comparisons exclude each other, and one of them holds. -/
def OppositeCmp (c c' : String) : Prop :=
  (c ∈ [">", "gt"] ∧ c' ∈ ["<=", "le", "lte"]) ∨ (c ∈ ["<", "lt"] ∧ c' ∈ [">=", "ge", "gte"]) ∨ (c ∈ ["==", "eq"] ∧ c' ∈ ["!=", "ne"])

/-! ### Lemmas -/

theorem booleansIndex_ok (fuel : Nat) (f : PyFilter) (vs : List V) : (∃ b, booleansIndex fuel f vs = .ok b) ↔ ∀ v ∈ vs, ∃ b, filterOne fuel f v = .ok b := by
  induction vs with
  | nil => exact ⟨fun _ _ h => absurd h List.not_mem_nil, fun _ => ⟨_, rfl⟩⟩
  | cons v vs ih =>
    rw [List.forall_mem_cons, ← ih]
    constructor
    · rintro ⟨b, h⟩
      rw [booleansIndex, bind_ok] at h
      obtain ⟨x, hx, h⟩ := h
      rw [bind_ok] at h
      obtain ⟨y, hy, -⟩ := h
      exact ⟨⟨x, hx⟩, y, hy⟩
    · rintro ⟨⟨x, hx⟩, y, hy⟩
      exact ⟨x :: y, by simp [booleansIndex, hx, hy, bind, Except.bind]⟩

theorem allBooleans_ok (fuel : Nat) (fs : List PyFilter) (vs : List V) :
    (∃ b, allBooleans fuel fs vs = .ok b) ↔ ∀ f ∈ fs, ∀ v ∈ vs, ∃ b, filterOne fuel f v = .ok b := by
  induction fs with
  | nil => exact ⟨fun _ _ h => absurd h List.not_mem_nil, fun _ => ⟨_, rfl⟩⟩
  | cons f fs ih =>
    rw [List.forall_mem_cons, ← ih, ← booleansIndex_ok]
    constructor
    · rintro ⟨b, h⟩
      rw [allBooleans, bind_ok] at h
      obtain ⟨x, hx, h⟩ := h
      rw [bind_ok] at h
      obtain ⟨y, hy, -⟩ := h
      exact ⟨⟨x, hx⟩, y, hy⟩
    · rintro ⟨⟨x, hx⟩, y, hy⟩
      exact ⟨x :: y, by simp [allBooleans, hx, hy, bind, Except.bind]⟩

theorem filtersApply_ok (fuel : Nat) (fs : List PyFilter) (op : String) (vs : List V) :
    (∃ r, filtersApply fuel fs op vs = .ok r) ↔ op ∈ ["and", "or", "xor"] ∧ ∀ f ∈ fs, ∀ v ∈ vs, ∃ b, filterOne fuel f v = .ok b := by
  rw [← allBooleans_ok]
  constructor
  · rintro ⟨r, h⟩
    refine ⟨?_, ?_⟩
    · by_contra hc
      exact C25_unknown_logical fuel fs op vs hc r h
    · unfold filtersApply at h
      rw [bind_ok] at h
      obtain ⟨b, hb, -⟩ := h
      exact ⟨b, hb⟩
  · rintro ⟨hop, b, hb⟩
    simp only [List.mem_cons, List.not_mem_nil, or_false] at hop
    rcases hop with rfl | rfl | rfl <;> simp [filtersApply, hb, combine, bind, Except.bind]

theorem filtersApply_keeps {fuel : Nat} {fs : List PyFilter} {op : String} {vs r : List V} (h : filtersApply fuel fs op vs = .ok r) :
    ∃ p : V → Bool, (∀ v, p v = true ↔ FilterKeeps fuel fs op v) ∧ r = vs.filter p := by
  have hop := ((filtersApply_ok fuel fs op vs).1 ⟨r, h⟩).1
  have hor : ∀ op, op ≠ "and" → filtersApply fuel fs "or" vs = .ok r → ∃ p : V → Bool, (∀ v, p v = true ↔ FilterKeeps fuel fs op v) ∧ r = vs.filter p := by
    intro op hne h
    obtain ⟨p, hp, hr⟩ := C25_or fuel fs vs r h
    refine ⟨p, fun v => ?_, hr⟩
    rw [hp]
    exact ⟨fun ⟨f, hf, hs⟩ => ⟨List.ne_nil_of_mem hf, fun e => absurd e hne, fun _ => ⟨f, hf, hs⟩⟩, fun h => h.2.2 hne⟩
  simp only [List.mem_cons, List.not_mem_nil, or_false] at hop
  rcases hop with rfl | rfl | rfl
  · by_cases hne : fs = []
    · subst hne
      rw [C25_empty_and_violated] at h
      cases h
      exact ⟨fun _ => false, fun v => by simp [FilterKeeps], by simp⟩
    · obtain ⟨p, hp, hr⟩ := C25_and fuel fs vs r hne h
      refine ⟨p, fun v => ?_, hr⟩
      rw [hp]
      exact ⟨fun h => ⟨hne, fun _ => h, fun e => absurd rfl e⟩, fun h => h.2.1 rfl⟩
  · exact hor _ (by decide) h
  · rw [C25_xor_is_or] at h
    exact hor _ (by decide) h

/-- What filters return, when they can be evaluated. -/
theorem filtersApply_eq {fuel : Nat} {fs : List PyFilter} {op : String} {vs : List V} (hop : op ∈ ["and", "or", "xor"])
    (h : ∀ f ∈ fs, ∀ v ∈ vs, ∃ b, filterOne fuel f v = .ok b) {p : V → Bool} (hp : ∀ v ∈ vs, p v = true ↔ FilterKeeps fuel fs op v) :
    filtersApply fuel fs op vs = .ok (vs.filter p) := by
  obtain ⟨r, hr⟩ := (filtersApply_ok fuel fs op vs).2 ⟨hop, h⟩
  obtain ⟨q, hq, e⟩ := filtersApply_keeps hr
  rw [hr, e]
  congr 1
  exact List.filter_congr fun v hv => by rw [Bool.eq_iff_iff, hq, hp v hv]

/-! ### C177 -/

/-- Filtering a list made of two parts is filtering each part. -/
theorem C177_concat (fuel : Nat) (fs : List PyFilter) (op : String) (vs ws r : List V) :
    filtersApply fuel fs op (vs ++ ws) = .ok r ↔ ∃ a b, filtersApply fuel fs op vs = .ok a ∧ filtersApply fuel fs op ws = .ok b ∧ r = a ++ b := by
  constructor
  · intro h
    obtain ⟨hop, hok⟩ := (filtersApply_ok ..).1 ⟨r, h⟩
    obtain ⟨p, hp, rfl⟩ := filtersApply_keeps h
    exact ⟨_, _, filtersApply_eq hop (fun f hf v hv => hok f hf v (List.mem_append_left _ hv)) fun v _ => hp v,
      filtersApply_eq hop (fun f hf v hv => hok f hf v (List.mem_append_right _ hv)) fun v _ => hp v, List.filter_append ..⟩
  · rintro ⟨a, b, ha, hb, rfl⟩
    obtain ⟨hop, hok⟩ := (filtersApply_ok ..).1 ⟨a, ha⟩
    obtain ⟨-, hok'⟩ := (filtersApply_ok ..).1 ⟨b, hb⟩
    obtain ⟨p, hp, rfl⟩ := filtersApply_keeps ha
    obtain ⟨q, hq, rfl⟩ := filtersApply_keeps hb
    have e : p = q := funext fun v => by rw [Bool.eq_iff_iff, hp, hq]
    subst e
    rw [← List.filter_append]
    refine filtersApply_eq hop (fun f hf v hv => ?_) fun v _ => hp v
    rcases List.mem_append.1 hv with hv | hv
    · exact hok f hf v hv
    · exact hok' f hf v hv

/-- The order of the objects does not change which are kept. -/
theorem C177_objects {fuel : Nat} {fs : List PyFilter} {op : String} {vs vs' r : List V} (hp : vs'.Perm vs) (h : filtersApply fuel fs op vs = .ok r) :
    ∃ r', filtersApply fuel fs op vs' = .ok r' ∧ r'.Perm r := by
  obtain ⟨hop, hok⟩ := (filtersApply_ok ..).1 ⟨r, h⟩
  obtain ⟨p, hk, rfl⟩ := filtersApply_keeps h
  exact ⟨_, filtersApply_eq hop (fun f hf v hv => hok f hf v (hp.mem_iff.1 hv)) fun v _ => hk v, hp.filter p⟩

/-- The order and the repetitions of the filters do not matter. -/
theorem C177_filters {fuel : Nat} {fs fs' : List PyFilter} {op : String} {vs r : List V} (hm : ∀ f, f ∈ fs' ↔ f ∈ fs) (h : filtersApply fuel fs op vs = .ok r) :
    filtersApply fuel fs' op vs = .ok r := by
  obtain ⟨hop, hok⟩ := (filtersApply_ok ..).1 ⟨r, h⟩
  obtain ⟨p, hk, rfl⟩ := filtersApply_keeps h
  refine filtersApply_eq hop (fun f hf v hv => hok f ((hm f).1 hf) v hv) fun v _ => ?_
  rw [hk]
  have hn : fs' ≠ [] ↔ fs ≠ [] := by
    rw [List.ne_nil_iff_exists_cons, List.ne_nil_iff_exists_cons]
    constructor
    · rintro ⟨f, l, rfl⟩
      exact List.exists_cons_of_ne_nil (List.ne_nil_of_mem ((hm f).1 (.head _)))
    · rintro ⟨f, l, rfl⟩
      exact List.exists_cons_of_ne_nil (List.ne_nil_of_mem ((hm f).2 (.head _)))
  simp only [FilterKeeps, hm, hn]

/-- Filtering with the filters of two lists, joined by "and", is filtering with the first list, then what it keeps with the second. -/
theorem C177_chain {fuel : Nat} {fs gs : List PyFilter} {vs r : List V} (hf : fs ≠ []) (hg : gs ≠ []) (h : filtersApply fuel (fs ++ gs) "and" vs = .ok r) :
    ∃ m, filtersApply fuel fs "and" vs = .ok m ∧ filtersApply fuel gs "and" m = .ok r := by
  classical
  obtain ⟨hop, hok⟩ := (filtersApply_ok ..).1 ⟨r, h⟩
  obtain ⟨p, hk, rfl⟩ := filtersApply_keeps h
  refine ⟨vs.filter fun v => decide (FilterKeeps fuel fs "and" v), filtersApply_eq hop (fun f hfm v hv => hok f (List.mem_append_left _ hfm) v hv) fun v _ => by simp, ?_⟩
  rw [filtersApply_eq hop (p := fun v => decide (FilterKeeps fuel gs "and" v)) (fun f hfm v hv => hok f (List.mem_append_right _ hfm) v (List.mem_filter.1 hv).1) fun v _ => by simp,
    List.filter_filter]
  congr 1
  apply List.filter_congr
  intro v _
  rw [Bool.eq_iff_iff, hk]
  simp [FilterKeeps, hf, hg, or_imp, forall_and]
  exact and_comm

/-- A filter and the one with the opposite comparison share out the objects. -/
theorem C177_opposite {fuel : Nat} {name c c' : String} {bound : Rat} {op : String} {vs a b : List V} (hc : OppositeCmp c c')
    (ha : filtersApply fuel [⟨name, c, bound⟩] op vs = .ok a) (hb : filtersApply fuel [⟨name, c', bound⟩] op vs = .ok b) : (a ++ b).Perm vs := by
  have hoka := ((filtersApply_ok ..).1 ⟨a, ha⟩).2 _ (.head _)
  obtain ⟨p, hp, rfl⟩ := filtersApply_keeps ha
  obtain ⟨q, hq, rfl⟩ := filtersApply_keeps hb
  have hone : ∀ (f : PyFilter) v, FilterKeeps fuel [f] op v ↔ Sat fuel f v := by
    intro f v
    by_cases e : op = "and" <;> simp [FilterKeeps, e]
  have e : vs.filter q = vs.filter fun v => !p v := by
    apply List.filter_congr
    intro v hv
    obtain ⟨t, ht⟩ := hoka v hv
    have h1 := filterOne_iff ht
    have hx : ∃ x, getPath fuel true v (filterPath name) = .ok x ∧ (num? x = none → c ∈ ["==", "eq"]) := by
      unfold filterOne at ht
      cases hcm : cmpOf c with
      | none => simp only [hcm, reduceCtorEq] at ht
      | some k =>
        simp only [hcm, bind_ok] at ht
        obtain ⟨x, hx, ht⟩ := ht
        refine ⟨x, hx, fun hn => ?_⟩
        simp only [cmpEval, hn] at ht
        rcases hc with ⟨h, -⟩ | ⟨h, -⟩ | ⟨h, -⟩
        · simp only [List.mem_cons, List.not_mem_nil, or_false] at h
          rcases h with rfl | rfl <;> (cases hcm; simp at ht)
        · simp only [List.mem_cons, List.not_mem_nil, or_false] at h
          rcases h with rfl | rfl <;> (cases hcm; simp at ht)
        · exact h
    obtain ⟨x, hx, hnum⟩ := hx
    have hsat : ∀ c, Sat fuel ⟨name, c, bound⟩ v ↔ ((∃ n, num? x = some n ∧ Means c n bound) ∨ num? x = none ∧ c ∈ ["!=", "ne"]) := by
      intro c
      simp only [Sat, hx, Except.ok.injEq, exists_eq_left', num?_iff, num?_none_iff]
    rw [Bool.eq_iff_iff, hq, hone, hsat, Bool.not_eq_true', ← Bool.not_eq_true, hp, hone, hsat]
    cases hn : num? x with
    | none =>
      have := hnum hn
      have hc' : c' ∈ ["!=", "ne"] := by
        rcases hc with ⟨h, -⟩ | ⟨h, -⟩ | ⟨-, h⟩
        · simp only [List.mem_cons, List.not_mem_nil, or_false] at h this
          rcases h with rfl | rfl <;> exact absurd this (by decide)
        · simp only [List.mem_cons, List.not_mem_nil, or_false] at h this
          rcases h with rfl | rfl <;> exact absurd this (by decide)
        · exact h
      simp only [reduceCtorEq, false_and, exists_false, true_and, false_or, hc', true_iff]
      simp only [List.mem_cons, List.not_mem_nil, or_false] at this
      rcases this with rfl | rfl <;> decide
    | some n =>
      simp only [Option.some.injEq, exists_eq_left', reduceCtorEq, false_and, or_false]
      rcases hc with ⟨h, h'⟩ | ⟨h, h'⟩ | ⟨h, h'⟩ <;> simp only [List.mem_cons, List.not_mem_nil, or_false] at h h'
      · rcases h with rfl | rfl <;> rcases h' with rfl | rfl | rfl <;> simp [Means]
      · rcases h with rfl | rfl <;> rcases h' with rfl | rfl | rfl <;> simp [Means]
      · rcases h with rfl | rfl <;> rcases h' with rfl | rfl <;> simp [Means]
  rw [e]
  exact List.filter_append_perm p vs

/-! ### Examples -/

example : filtersApply 5 (sampleFilters ++ [⟨"mpg", "<", 60⟩]) "and" [sampleCar 1000 50, sampleCar 2000 50, sampleCar 1000 70] = .ok [sampleCar 1000 50] := rfl

example : ∃ m, filtersApply 5 sampleFilters "and" [sampleCar 1000 50, sampleCar 2000 50, sampleCar 1000 70] = .ok m ∧
    filtersApply 5 [⟨"mpg", "<", 60⟩] "and" m = .ok [sampleCar 1000 50] := C177_chain (by decide) (by decide) rfl

example : filtersApply 5 (sampleFilters.reverse ++ sampleFilters) "or" [sampleCar 1000 50, sampleCar 2000 50, sampleCar 2000 9] = .ok [sampleCar 1000 50, sampleCar 2000 50] :=
  C177_filters (fs := sampleFilters) (by simp) rfl

example : OppositeCmp "gt" "<=" ∧ filtersApply 5 [⟨"weight", "gt", 1500⟩] "and" [sampleCar 1000 50, sampleCar 2000 50] = .ok [sampleCar 2000 50] ∧
    filtersApply 5 [⟨"weight", "<=", 1500⟩] "and" [sampleCar 1000 50, sampleCar 2000 50] = .ok [sampleCar 1000 50] := ⟨.inl (by decide), rfl, rfl⟩

example : ∃ r, filtersApply 5 sampleFilters "and" ([sampleCar 2000 50, sampleCar 1000 50].reverse) = .ok r ∧ r.Perm [sampleCar 1000 50] :=
  C177_objects (List.reverse_perm _) rfl

end DC
