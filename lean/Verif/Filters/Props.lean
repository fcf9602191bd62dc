import Verif.Filters.Spec
import Verif.Values.PointersLemmas
/- C25, C26: filters. -/
namespace DC

/-! ### Lemmas -/

/-- The comparison selected by each operator string. -/
def cmpTrue (c : Cmp) (a b : Rat) : Prop :=
  match c with
  | .gt => b < a | .lt => a < b | .ge => b ≤ a | .le => a ≤ b | .eq => a = b | .ne => a ≠ b

theorem cmpOf_means {s : String} {c : Cmp} (h : cmpOf s = some c) (a b : Rat) :
    (Means s a b ↔ cmpTrue c a b) ∧ (s ∈ ["!=", "ne"] ↔ c = .ne) := by
  have h := lookup_mem h
  simp only [realOperators, List.mem_cons, Prod.mk.injEq, List.not_mem_nil, or_false] at h
  rcases h with h | h | h | h | h | h | h | h | h | h | h | h | h | h <;> obtain ⟨rfl, rfl⟩ := h <;>
    simp [Means, cmpTrue]

theorem num?_iff {x : V} {a : Rat} : num? x = some a ↔ NumberIn x a := by
  constructor
  · intro h
    cases x with
    | int i => cases h; exact .int i
    | bool b => cases b <;> cases h <;> constructor
    | flt q => cases h; exact .flt _
    | measure c q => cases h; exact .measure c _
    | _ => cases h
  · intro h
    cases h <;> rfl

theorem num?_none_iff {x : V} : num? x = none ↔ ∀ a, ¬ NumberIn x a := by
  simp only [← num?_iff]
  cases num? x <;> simp

theorem filterOne_iff {fuel : Nat} {f : PyFilter} {v : V} {b : Bool} (h : filterOne fuel f v = .ok b) :
    b = true ↔ Sat fuel f v := by
  unfold filterOne at h
  split at h
  · simp at h
  · rename_i c hc
    rw [bind_ok] at h
    obtain ⟨x, hx, h⟩ := h
    have hsat : Sat fuel f v ↔ ((∃ a, num? x = some a ∧ Means f.comparison a f.bound) ∨
        (num? x = none ∧ f.comparison ∈ ["!=", "ne"])) := by
      unfold Sat
      rw [hx]
      simp [num?_iff, num?_none_iff]
    rw [hsat, (cmpOf_means hc 0 0).2]
    unfold cmpEval at h
    cases hn : num? x with
    | none =>
      rw [hn] at h
      cases c <;> simp_all
    | some a =>
      rw [hn] at h
      simp only [Option.some.injEq, exists_eq_left', reduceCtorEq, false_and, or_false, (cmpOf_means hc a f.bound).1]
      simp only [Except.ok.injEq] at h
      subst h
      cases c <;> simp [cmpTrue]

theorem booleansIndex_get {fuel : Nat} {f : PyFilter} {vs : List V} {bs : List Bool}
    (h : booleansIndex fuel f vs = .ok bs) : List.Forall₂ (fun v b => b = true ↔ Sat fuel f v) vs bs := by
  induction vs generalizing bs with
  | nil => simp only [booleansIndex, Except.ok.injEq] at h; subst h; exact .nil
  | cons v vs ih =>
    rw [booleansIndex, bind_ok] at h
    obtain ⟨b, hb, h⟩ := h
    rw [bind_ok] at h
    obtain ⟨bs', hbs, h⟩ := h
    simp only [Except.ok.injEq] at h
    subst h
    exact .cons (filterOne_iff hb) (ih hbs)

theorem compress_filter {α : Type} {P : α → Prop} {vs : List α} {bs : List Bool}
    (h : List.Forall₂ (fun v b => b = true ↔ P v) vs bs) [DecidablePred P] :
    compress vs bs = vs.filter (fun v => decide (P v)) := by
  induction h with
  | nil => rfl
  | cons hb _ ih =>
    rw [compress, List.filter_cons]
    split
    · rename_i h; rw [if_pos (by simpa using hb.1 h), ih]
    · rename_i h; rw [if_neg (by simpa using fun hp => h (hb.2 hp)), ih]

theorem allBooleans_get {fuel : Nat} {fs : List PyFilter} {vs : List V} {bs : List (List Bool)}
    (h : allBooleans fuel fs vs = .ok bs) :
    List.Forall₂ (fun f l => List.Forall₂ (fun v b => b = true ↔ Sat fuel f v) vs l) fs bs := by
  induction fs generalizing bs with
  | nil => simp only [allBooleans, Except.ok.injEq] at h; subst h; exact .nil
  | cons f fs ih =>
    rw [allBooleans, bind_ok] at h
    obtain ⟨b, hb, h⟩ := h
    rw [bind_ok] at h
    obtain ⟨bs', hbs, h⟩ := h
    simp only [Except.ok.injEq] at h
    subst h
    exact .cons (booleansIndex_get hb) (ih hbs)

/-- Column `i` of the zip of non-empty families holds the booleans of object `i`, one per filter. -/
theorem zipStar_get {fuel : Nat} {fs : List PyFilter} {vs : List V} {bs : List (List Bool)}
    (h : List.Forall₂ (fun f l => List.Forall₂ (fun v b => b = true ↔ Sat fuel f v) vs l) fs bs) (hne : fs ≠ []) :
    List.Forall₂ (fun v t => List.Forall₂ (fun f b => b = true ↔ Sat fuel f v) fs t) vs (zipStar bs) := by
  induction h with
  | nil => exact absurd rfl hne
  | @cons f l fs' ls' hf hrest ih =>
    cases hrest with
    | nil =>
      rw [zipStar]
      rw [List.forall₂_map_right_iff]
      exact hf.imp fun v b hb => .cons hb .nil
    | @cons f2 l2 fs2 ls2 h2 hr2 =>
      have ih := ih (by simp)
      rw [zipStar]
      generalize zipStar (l2 :: ls2) = z at ih
      · clear h2 hr2 hne
        rename_i ih0
        clear ih0
        induction hf generalizing z with
        | nil => cases ih; exact .nil
        | cons hb _ ihv =>
          cases ih with
          | cons ht hts => exact .cons (.cons hb ht) (ihv _ hts)
      · simp

theorem forall₂_all {fuel : Nat} {fs : List PyFilter} {v : V} {t : List Bool}
    (h : List.Forall₂ (fun f b => b = true ↔ Sat fuel f v) fs t) :
    t.all id = true ↔ ∀ f ∈ fs, Sat fuel f v := by
  induction h with
  | nil => simp
  | cons hb _ ih => simp [hb, ← ih]

theorem forall₂_any {fuel : Nat} {fs : List PyFilter} {v : V} {t : List Bool}
    (h : List.Forall₂ (fun f b => b = true ↔ Sat fuel f v) fs t) :
    t.any id = true ↔ ∃ f ∈ fs, Sat fuel f v := by
  induction h with
  | nil => simp
  | cons hb _ ih => simp [hb, ← ih]

theorem sum_any (t : List Bool) :
    decide ((t.map (fun b => if b then 1 else 0)).sum ≠ 0) = t.any id := by
  induction t with
  | nil => rfl
  | cons b t ih => cases b <;> simp_all

/-! ### C25 -/

/-- **C25, and.** With at least one filter, `FiltersList(filters, "and").apply(objects)` returns the objects which
satisfy every filter, in the order of the list and with their repetitions. -/
theorem C25_and (fuel : Nat) (fs : List PyFilter) (vs r : List V) (hne : fs ≠ [])
    (h : filtersApply fuel fs "and" vs = .ok r) :
    ∃ p : V → Bool, (∀ v, p v = true ↔ ∀ f ∈ fs, Sat fuel f v) ∧ r = vs.filter p := by
  classical
  unfold filtersApply at h
  rw [bind_ok] at h
  obtain ⟨bs, hbs, h⟩ := h
  simp only [combine, if_true, bind_ok, Except.ok.injEq] at h
  obtain ⟨b, rfl, rfl⟩ := h
  refine ⟨fun v => decide (∀ f ∈ fs, Sat fuel f v), by simp, compress_filter ?_⟩
  rw [List.forall₂_map_right_iff]
  exact (zipStar_get (allBooleans_get hbs) hne).imp fun v t ht => forall₂_all ht

/-- **C25, or.** With "or", the objects which satisfy one filter at least. -/
theorem C25_or (fuel : Nat) (fs : List PyFilter) (vs r : List V)
    (h : filtersApply fuel fs "or" vs = .ok r) :
    ∃ p : V → Bool, (∀ v, p v = true ↔ ∃ f ∈ fs, Sat fuel f v) ∧ r = vs.filter p := by
  classical
  unfold filtersApply at h
  rw [bind_ok] at h
  obtain ⟨bs, hbs, h⟩ := h
  simp only [combine, if_true, bind_ok, Except.ok.injEq, (by decide : ("or" : String) ≠ "and"), if_false] at h
  obtain ⟨b, rfl, rfl⟩ := h
  by_cases hne : fs = []
  · subst hne
    simp only [allBooleans, Except.ok.injEq] at hbs
    subst hbs
    refine ⟨fun _ => false, by simp, ?_⟩
    cases vs <;> simp [filterApply, zipStar, compress]
  refine ⟨fun v => decide (∃ f ∈ fs, Sat fuel f v), by simp, compress_filter ?_⟩
  rw [List.forall₂_map_right_iff]
  exact (zipStar_get (allBooleans_get hbs) hne).imp fun v t ht => forall₂_any ht

/-- "xor" computes the same result as "or" on every list of filters and objects. -/
theorem C25_xor_is_or (fuel : Nat) (fs : List PyFilter) (vs : List V) :
    filtersApply fuel fs "xor" vs = filtersApply fuel fs "or" vs := by
  unfold filtersApply
  congr 1
  funext bs
  simp only [combine, (by decide : ("or" : String) ≠ "and"), (by decide : ("xor" : String) ≠ "and"),
    (by decide : ("xor" : String) ≠ "or"), if_false, if_true]
  simp only [sum_any]

/-- **C25, xor (partial).** When no object satisfies two filters, "xor" keeps the objects which satisfy exactly one.
The full statement, without that hypothesis, is false: `C25_xor_violated`. -/
theorem C25_xor_partial (fuel : Nat) (fs : List PyFilter) (vs r : List V)
    (hex : ∀ v ∈ vs, ∀ f ∈ fs, ∀ g ∈ fs, Sat fuel f v → Sat fuel g v → f = g)
    (h : filtersApply fuel fs "xor" vs = .ok r) :
    ∃ p : V → Bool, (∀ v ∈ vs, p v = true ↔ ∃ f ∈ fs, Sat fuel f v ∧ ∀ g ∈ fs, Sat fuel g v → g = f) ∧
      r = vs.filter p := by
  rw [C25_xor_is_or] at h
  obtain ⟨p, hp, rfl⟩ := C25_or fuel fs vs r h
  refine ⟨p, fun v hv => ?_, rfl⟩
  rw [hp]
  exact ⟨fun ⟨f, hf, hs⟩ => ⟨f, hf, hs, fun g hg hgs => hex v hv g hg f hf hgs hs⟩, fun ⟨f, hf, hs, _⟩ => ⟨f, hf, hs⟩⟩

def sampleCar (w m : Int) : V := .obj "Car" [(.str "weight", .int w), (.str "mpg", .int m)]
def sampleFilters : List PyFilter := [⟨"weight", "<=", 1650⟩, ⟨"mpg", "gte", 45⟩]

/-- **C25 fails for xor**: an object which satisfies two filters is kept. -/
theorem C25_xor_violated :
    ∃ (v : V) (f g : PyFilter), f ≠ g ∧ Sat 5 f v ∧ Sat 5 g v ∧ filtersApply 5 [f, g] "xor" [v] = .ok [v] := by
  refine ⟨sampleCar 1000 50, ⟨"weight", "<=", 1650⟩, ⟨"mpg", "gte", 45⟩, by decide, ?_, ?_, ?_⟩
  · exact ⟨.int 1000, rfl, .inl ⟨1000, .int 1000, by right; right; right; left; exact ⟨by decide, by decide +kernel⟩⟩⟩
  · exact ⟨.int 50, rfl, .inl ⟨50, .int 50, by right; right; left; exact ⟨by decide, by decide +kernel⟩⟩⟩
  · rfl

/-- **C25 fails for "and" without filter**: every object satisfies every filter of the empty list, none is kept. -/
theorem C25_empty_and_violated (fuel : Nat) (vs : List V) : filtersApply fuel [] "and" vs = .ok [] := by
  cases vs <;> rfl

/-- An unknown logical operator is reported, whatever the objects, as soon as the filters can be evaluated. -/
theorem C25_unknown_logical (fuel : Nat) (fs : List PyFilter) (op : String) (vs : List V)
    (hop : op ∉ ["and", "or", "xor"]) : ∀ r, filtersApply fuel fs op vs ≠ .ok r := by
  intro r h
  unfold filtersApply at h
  rw [bind_ok] at h
  obtain ⟨bs, -, h⟩ := h
  simp only [List.mem_cons, List.not_mem_nil, or_false, not_or] at hop
  simp [combine, hop, bind, Except.bind] at h

/-- An unknown comparison operator is reported as soon as there is an object to compare. -/
theorem C25_unknown_comparison (fuel : Nat) (fs : List PyFilter) (op : String) (vs : List V) (f : PyFilter) (hf : f ∈ fs)
    (hop : f.comparison ∉ [">", "<", ">=", "<=", "==", "!=", "gt", "lt", "ge", "le", "eq", "ne", "gte", "lte"])
    (hvs : vs ≠ []) : ∀ r, filtersApply fuel fs op vs ≠ .ok r := by
  have hb : ∀ r, allBooleans fuel fs vs ≠ .ok r := by
    induction fs with
    | nil => simp at hf
    | cons g fs ih =>
      intro r h
      rw [allBooleans, bind_ok] at h
      obtain ⟨b, hb, h⟩ := h
      rw [bind_ok] at h
      obtain ⟨bs, hbs, h⟩ := h
      rcases List.mem_cons.1 hf with rfl | hf
      · cases vs with
        | nil => exact hvs rfl
        | cons v vs =>
          rw [booleansIndex, bind_ok] at hb
          obtain ⟨x, hx, -⟩ := hb
          have : cmpOf f.comparison = none := by
            cases hc : cmpOf f.comparison with
            | none => rfl
            | some c =>
              have hm := List.mem_map_of_mem (f := Prod.fst) (lookup_mem hc)
              exact absurd hm hop
          simp [filterOne, this] at hx
      · exact ih hf _ hbs
  intro r h
  unfold filtersApply at h
  rw [bind_ok] at h
  obtain ⟨bs, hbs, -⟩ := h
  exact hb _ hbs

/-- When the operator of the first filter is unknown, the exception is a KeyError. -/
theorem C25_unknown_error (fuel : Nat) (f : PyFilter) (fs : List PyFilter) (op : String) (v : V) (vs : List V)
    (hop : f.comparison ∉ [">", "<", ">=", "<=", "==", "!=", "gt", "lt", "ge", "le", "eq", "ne", "gte", "lte"]) :
    filtersApply fuel (f :: fs) op (v :: vs) = .error .keyError := by
  have : cmpOf f.comparison = none := by
    cases hc : cmpOf f.comparison with
    | none => rfl
    | some c => exact absurd (List.mem_map_of_mem (f := Prod.fst) (lookup_mem hc)) hop
  simp [filtersApply, allBooleans, booleansIndex, filterOne, this, bind, Except.bind]

example : "=>" ∉ [">", "<", ">=", "<=", "==", "!=", "gt", "lt", "ge", "le", "eq", "ne", "gte", "lte"] := by decide

/-- Filters on readable numeric attributes with known operators never fail. -/
theorem C25_total (fuel : Nat) (fs : List PyFilter) (op : String) (vs : List V) (hop : op ∈ ["and", "or", "xor"])
    (hf : ∀ f ∈ fs, f.comparison ∈ [">", "<", ">=", "<=", "==", "!=", "gt", "lt", "ge", "le", "eq", "ne", "gte", "lte"])
    (hv : ∀ f ∈ fs, ∀ v ∈ vs, ∃ x a, getPath fuel true v (filterPath f.attr) = .ok x ∧ NumberIn x a) :
    ∃ r, filtersApply fuel fs op vs = .ok r := by
  have h1 : ∀ f ∈ fs, ∃ b, booleansIndex fuel f vs = .ok b := by
    intro f hfm
    have hc : ∃ c, cmpOf f.comparison = some c := by
      have := hf f hfm
      simp only [List.mem_cons, List.not_mem_nil, or_false] at this
      rcases this with e | e | e | e | e | e | e | e | e | e | e | e | e | e <;> rw [e] <;> exact ⟨_, rfl⟩
    obtain ⟨c, hc⟩ := hc
    have hv := hv f hfm
    clear * - hv hc
    induction vs with
    | nil => exact ⟨_, rfl⟩
    | cons v vs ih =>
      obtain ⟨bs, hbs⟩ := ih (fun w hw => hv w (.tail _ hw))
      obtain ⟨x, a, hx, ha⟩ := hv v (.head _)
      have ha := num?_iff.2 ha
      simp [booleansIndex, filterOne, hc, hx, cmpEval, ha, hbs, bind, Except.bind]
  have h2 : ∃ bs, allBooleans fuel fs vs = .ok bs := by
    clear hf hv
    induction fs with
    | nil => exact ⟨_, rfl⟩
    | cons f fs ih =>
      obtain ⟨bs, hbs⟩ := ih (fun g hg => h1 g (.tail _ hg))
      obtain ⟨b, hb⟩ := h1 f (.head _)
      simp [allBooleans, hb, hbs, bind, Except.bind]
  obtain ⟨bs, hbs⟩ := h2
  simp only [List.mem_cons, List.not_mem_nil, or_false] at hop
  rcases hop with rfl | rfl | rfl <;> simp [filtersApply, hbs, combine, bind, Except.bind]

/-- A boolean is compared as a number: the objects whose switch is on are kept. -/
example : filtersApply 5 [⟨"on", ">", 0⟩] "and" [.obj "Lamp" [(.str "on", .bool true)], .obj "Lamp" [(.str "on", .bool false)]] =
    .ok [.obj "Lamp" [(.str "on", .bool true)]] := rfl

/-- The hypotheses are met: two cars, two filters. -/
example : filtersApply 5 sampleFilters "and" [sampleCar 1000 50, sampleCar 2000 50] = .ok [sampleCar 1000 50] ∧
    filtersApply 5 sampleFilters "or" [sampleCar 1000 50, sampleCar 2000 50, sampleCar 2000 9]
      = .ok [sampleCar 1000 50, sampleCar 2000 50] := ⟨rfl, rfl⟩
example : filtersApply 5 sampleFilters "xor" [sampleCar 1000 4, sampleCar 2000 50, sampleCar 2000 9]
      = .ok [sampleCar 1000 4, sampleCar 2000 50] := rfl

/-! ### C26 -/

/-- **C26.** What a filter list returns is a sublist of its input: nothing is invented, moved or repeated. -/
theorem C26_sublist (fuel : Nat) (fs : List PyFilter) (op : String) (vs r : List V)
    (h : filtersApply fuel fs op vs = .ok r) : r.Sublist vs := by
  unfold filtersApply at h
  rw [bind_ok] at h
  obtain ⟨bs, -, h⟩ := h
  rw [bind_ok] at h
  obtain ⟨b, -, h⟩ := h
  simp only [Except.ok.injEq] at h
  subst h
  unfold filterApply
  clear * -
  induction vs generalizing b with
  | nil => simp [compress]
  | cons v vs ih =>
    cases b with
    | nil => simp [compress]
    | cons x xs =>
      rw [compress]
      split
      · exact (ih xs).cons_cons v
      · exact (ih xs).cons v

/-- **C26.** Filtering the result again with the same filters changes nothing. -/
theorem C26_idempotent (fuel : Nat) (fs : List PyFilter) (op : String) (vs r : List V)
    (h : filtersApply fuel fs op vs = .ok r) : filtersApply fuel fs op r = .ok r := by
  have hsub := C26_sublist fuel fs op vs r h
  have hop : op = "and" ∨ op = "or" ∨ op = "xor" := by
    by_contra hc
    exact C25_unknown_logical fuel fs op vs (by simpa using hc) r h
  -- evaluation succeeds on any sublist
  have hb : ∀ (f : PyFilter) (l m : List V), l.Sublist m → (∃ b, booleansIndex fuel f m = .ok b) →
      ∃ b, booleansIndex fuel f l = .ok b := by
    intro f l m hs
    induction hs with
    | slnil => exact id
    | cons a _ ih =>
      rintro ⟨b, hb⟩
      rw [booleansIndex, bind_ok] at hb
      obtain ⟨x, -, hb⟩ := hb
      rw [bind_ok] at hb
      obtain ⟨y, hy, -⟩ := hb
      exact ih ⟨y, hy⟩
    | cons_cons a _ ih =>
      rintro ⟨b, hb⟩
      rw [booleansIndex, bind_ok] at hb
      obtain ⟨x, hx, hb⟩ := hb
      rw [bind_ok] at hb
      obtain ⟨y, hy, -⟩ := hb
      obtain ⟨z, hz⟩ := ih ⟨y, hy⟩
      exact ⟨x :: z, by simp [booleansIndex, hx, hz, bind, Except.bind]⟩
  have hall : ∀ gs : List PyFilter, (∃ b, allBooleans fuel gs vs = .ok b) → ∃ b, allBooleans fuel gs r = .ok b := by
    intro gs
    induction gs with
    | nil => intro _; exact ⟨_, rfl⟩
    | cons g gs ih =>
      rintro ⟨b, h1⟩
      rw [allBooleans, bind_ok] at h1
      obtain ⟨x, hx, h1⟩ := h1
      rw [bind_ok] at h1
      obtain ⟨y, hy, -⟩ := h1
      obtain ⟨z, hz⟩ := ih ⟨y, hy⟩
      obtain ⟨w, hw⟩ := hb g r vs hsub ⟨x, hx⟩
      exact ⟨w :: z, by simp [allBooleans, hw, hz, bind, Except.bind]⟩
  have hsome : ∃ r', filtersApply fuel fs op r = .ok r' := by
    have h' := h
    unfold filtersApply at h'
    rw [bind_ok] at h'
    obtain ⟨bs, hbs, -⟩ := h'
    obtain ⟨b, hb⟩ := hall fs ⟨bs, hbs⟩
    rcases hop with rfl | rfl | rfl <;> simp [filtersApply, hb, combine, bind, Except.bind]
  obtain ⟨r', hr'⟩ := hsome
  rw [hr']
  congr 1
  by_cases hne : fs = []
  · subst hne
    rcases hop with rfl | rfl | rfl
    · rw [C25_empty_and_violated] at h hr'
      simp_all
    · obtain ⟨p, hp, rfl⟩ := C25_or _ _ _ _ h
      obtain ⟨q, hq, rfl⟩ := C25_or _ _ _ _ hr'
      rw [show q = p from funext fun v => by rw [Bool.eq_iff_iff, hp, hq]]
      simp
    · rw [C25_xor_is_or] at h hr'
      obtain ⟨p, hp, rfl⟩ := C25_or _ _ _ _ h
      obtain ⟨q, hq, rfl⟩ := C25_or _ _ _ _ hr'
      rw [show q = p from funext fun v => by rw [Bool.eq_iff_iff, hp, hq]]
      simp
  rcases hop with rfl | rfl | rfl
  · obtain ⟨p, hp, rfl⟩ := C25_and _ _ _ _ hne h
    obtain ⟨q, hq, rfl⟩ := C25_and _ _ _ _ hne hr'
    rw [show q = p from funext fun v => by rw [Bool.eq_iff_iff, hp, hq]]
    simp
  · obtain ⟨p, hp, rfl⟩ := C25_or _ _ _ _ h
    obtain ⟨q, hq, rfl⟩ := C25_or _ _ _ _ hr'
    rw [show q = p from funext fun v => by rw [Bool.eq_iff_iff, hp, hq]]
    simp
  · rw [C25_xor_is_or] at h hr'
    obtain ⟨p, hp, rfl⟩ := C25_or _ _ _ _ h
    obtain ⟨q, hq, rfl⟩ := C25_or _ _ _ _ hr'
    rw [show q = p from funext fun v => by rw [Bool.eq_iff_iff, hp, hq]]
    simp

/-- **C26.** A boolean index has one entry per object. -/
theorem C26_length (fuel : Nat) (f : PyFilter) (vs : List V) (bs : List Bool)
    (h : booleansIndex fuel f vs = .ok bs) : bs.length = vs.length :=
  (booleansIndex_get h).length_eq.symm

theorem compress_range (bs : List Bool) (k : Nat) :
    ∀ i, i ∈ compress (List.range' k bs.length) bs ↔ ∃ j, bs[j]? = some true ∧ i = k + j := by
  induction bs generalizing k with
  | nil => simp [compress]
  | cons b bs ih =>
    intro i
    rw [List.length_cons, List.range'_succ, compress]
    have h1 : (∃ j, (b :: bs)[j]? = some true ∧ i = k + j) ↔
        (b = true ∧ i = k) ∨ (∃ j, bs[j]? = some true ∧ i = k + 1 + j) := by
      constructor
      · rintro ⟨j, hj, rfl⟩
        cases j with
        | zero => left; simpa using hj
        | succ j => right; exact ⟨j, by simpa using hj, by omega⟩
      · rintro (⟨rfl, rfl⟩ | ⟨j, hj, rfl⟩)
        · exact ⟨0, by simp⟩
        · exact ⟨j + 1, by simpa using hj, by omega⟩
    rw [h1]
    split
    · rename_i hb; simp [ih, hb]
    · rename_i hb; simp [ih, hb]

theorem compress_sublist {α : Type} (l : List α) (bs : List Bool) : (compress l bs).Sublist l := by
  induction l generalizing bs with
  | nil => simp [compress]
  | cons v vs ih =>
    cases bs with
    | nil => simp [compress]
    | cons x xs =>
      rw [compress]
      split
      · exact (ih xs).cons_cons v
      · exact (ih xs).cons v

/-- **C26.** The index list names exactly the positions marked by the boolean index, once each and in order, and
picking these positions gives what applying the boolean index gives. -/
theorem C26_indexes (bs : List Bool) (vs : List V) (hlen : bs.length = vs.length) :
    (∀ i, i ∈ toIndexList bs ↔ bs[i]? = some true) ∧ (toIndexList bs).Pairwise (· < ·) ∧
    (toIndexList bs).filterMap (fun i => vs[i]?) = filterApply vs bs := by
  refine ⟨fun i => ?_, ?_, ?_⟩
  · unfold toIndexList
    rw [List.range_eq_range', compress_range]
    simp
  · exact List.Pairwise.sublist (compress_sublist _ _) List.pairwise_lt_range
  · unfold toIndexList filterApply
    rw [List.range_eq_range']
    have : ∀ (pre : List V), (compress (List.range' pre.length bs.length) bs).filterMap (fun i => (pre ++ vs)[i]?) =
        compress vs bs := by
      clear * - hlen
      induction bs generalizing vs with
      | nil => intro pre; cases vs <;> simp [compress]
      | cons b bs ih =>
        intro pre
        cases vs with
        | nil => simp at hlen
        | cons v vs =>
          have ih := ih vs (by simpa using hlen) (pre ++ [v])
          simp only [List.length_append, List.length_singleton, List.append_assoc, List.singleton_append] at ih
          rw [List.length_cons, List.range'_succ, compress, compress]
          split
          · rw [List.filterMap_cons_some (b := v) (by simp), ih]
          · exact ih
    simpa using this []

example : toIndexList [false, true, true] = [1, 2] ∧
    booleansIndex 5 ⟨"mpg", "gt", 20⟩ [sampleCar 1 2, sampleCar 3 30] = .ok [false, true] := ⟨rfl, rfl⟩

end DC
