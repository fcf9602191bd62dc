import Verif.Misc.Optimize
import Verif.Misc.NumbersProps
/- Property C166: what an optimization returns. -/
namespace DC.Num

variable {M : Type}

/-! ### Specification -/

/-- What the searches are trusted for: the point they return is within the bounds and has the cost they return. -/
structure Trusted (S : Searches) : Prop where
  minimize : ∀ f x0 bs r, S.minimize f x0 bs = .ok r → r.1.length = bs.length ∧ f r.1 = .ok r.2 ∧
    ∀ (i : Nat) (b : Rat × Rat) (x : Rat), bs[i]? = some b → r.1[i]? = some x → b.1 ≤ x ∧ x ≤ b.2
  cma : ∀ f x0 bs r, S.cma f x0 bs = .ok r → r.1.length = bs.1.length ∧ f r.1 = .ok r.2 ∧
    ∀ (i : Nat) (lo hi x : Rat), bs.1[i]? = some lo → bs.2[i]? = some hi → r.1[i]? = some x → lo ≤ x ∧ x ≤ hi

/-- A model that may be returned with this cost: its cost is this one, and it was made from the fixed values and from values within the bounds, and
nothing else. -/
def Admissible (P : Problem M) (m : M) (fx : Rat) : Prop :=
  P.objective m = .ok fx ∧ ∃ attrs, P.instantiate attrs = .ok m ∧
    (∀ b ∈ P.bounds, ∃ v, attrs.lookup b.name = some v ∧ b.lo ≤ v ∧ v ≤ b.hi) ∧
    (∀ fp ∈ P.fixed, attrs.lookup fp.1 = some fp.2) ∧
    ∀ q ∈ attrs.map (·.1), q ∈ P.fixed.map (·.1) ∨ q ∈ P.bounds.map (·.name)

/-- The attributes of a problem are different, and their bounds in order. -/
def WellPosed (P : Problem M) : Prop :=
  (P.bounds.map (·.name)).Nodup ∧ (P.fixed.map (·.1)).Nodup ∧ (∀ fp ∈ P.fixed, ∀ b ∈ P.bounds, b.name ≠ fp.1) ∧ ∀ b ∈ P.bounds, b.lo ≤ b.hi

/-! ### Proofs -/

theorem toValue_bounds {b : Bound} {x : Rat} (hb : b.lo ≤ b.hi) (h0 : 0 ≤ x) (h1 : x ≤ 1) : b.lo ≤ b.toValue x ∧ b.toValue x ≤ b.hi := by
  unfold Bound.toValue
  have h2 : 0 ≤ b.hi - b.lo := by linarith
  constructor <;> nlinarith [mul_nonneg h0 h2, mul_nonneg (by linarith : (0 : Rat) ≤ 1 - x) h2]

theorem admissible_of {P : Problem M} (hP : WellPosed P) {x : List Rat} {m : M} {fx : Rat} (hl : x.length = P.bounds.length)
    (hx : ∀ (i : Nat) (v : Rat), x[i]? = some v → 0 ≤ v ∧ v ≤ 1) (hc : P.costAt x = .ok fx) (hm : P.modelAt x = .ok m) : Admissible P m fx := by
  simp only [Problem.costAt, hm] at hc
  refine ⟨hc, _, hm, fun b hb => ?_, fun fp hf => ?_, fun q hq => ?_⟩
  · obtain ⟨i, hi⟩ := List.getElem?_of_mem hb
    obtain ⟨hlen, hv⟩ := C61_vector hl.symm
    obtain ⟨hi', -⟩ := List.getElem?_eq_some_iff.1 hi
    obtain ⟨v, hv1, hv2, -⟩ := hv i b (x[i]'(by omega)) hi (List.getElem?_eq_getElem _)
    obtain ⟨h0, h1⟩ := hx i (x[i]'(by omega)) (List.getElem?_eq_getElem _)
    refine ⟨v, C61_bounded P.fixed hlen.symm hP.1 hi hv1, ?_⟩
    rw [hv2]
    exact toValue_bounds (hP.2.2.2 b hb) h0 h1
  · exact C61_fixed _ hP.2.1 hf (hP.2.2.1 fp hf)
  · exact (C61_only (C61_vector hl.symm).1.symm q).1 hq

/-- The gradient search returns a model within the bounds, with its cost. -/
theorem C166_gradient {P : Problem M} (hP : WellPosed P) {S : Searches} (hS : Trusted S) {draw : List Rat} {x0 : Option (List Rat)} {m : M}
    {fx : Rat} (h : P.optimizeGradient S draw x0 = .ok (m, fx)) : Admissible P m fx := by
  simp only [Problem.optimizeGradient] at h
  cases hr : S.minimize P.costAt (x0.getD draw) P.scipyBounds with
  | error e => rw [hr] at h; simp at h
  | ok r =>
    rw [hr] at h
    simp only at h
    cases hm : P.modelAt r.1 with
    | error e => rw [hm] at h; simp at h
    | ok m' =>
      rw [hm] at h
      simp only [Except.ok.injEq, Prod.mk.injEq] at h
      obtain ⟨rfl, rfl⟩ := h
      obtain ⟨h1, h2, h3⟩ := hS.minimize _ _ _ _ hr
      refine admissible_of hP (by simpa [Problem.scipyBounds] using h1) (fun i v hv => ?_) h2 hm
      have hi : i < P.bounds.length := by
        have := (List.getElem?_eq_some_iff.1 hv).1
        simpa [h1, Problem.scipyBounds] using this
      exact h3 i (0, 1) v (by simp [Problem.scipyBounds, hi]) hv

/-- So does the search with CMA. -/
theorem C166_cma {P : Problem M} (hP : WellPosed P) {S : Searches} (hS : Trusted S) {draw : List Rat} {m : M} {fx : Rat}
    (h : P.optimizeCma S draw = .ok (m, fx)) : Admissible P m fx := by
  simp only [Problem.optimizeCma] at h
  cases hr : S.cma P.costAt draw P.cmaBounds with
  | error e => rw [hr] at h; simp at h
  | ok r =>
    rw [hr] at h
    simp only at h
    cases hm : P.modelAt r.1 with
    | error e => rw [hm] at h; simp at h
    | ok m' =>
      rw [hm] at h
      simp only [Except.ok.injEq, Prod.mk.injEq] at h
      obtain ⟨rfl, rfl⟩ := h
      obtain ⟨h1, h2, h3⟩ := hS.cma _ _ _ _ hr
      refine admissible_of hP (by simpa [Problem.cmaBounds] using h1) (fun i v hv => ?_) h2 hm
      have hi : i < P.bounds.length := by
        have := (List.getElem?_eq_some_iff.1 hv).1
        simpa [h1, Problem.cmaBounds] using this
      exact h3 i 0 1 v (by simp [Problem.cmaBounds, hi]) (by simp [Problem.cmaBounds, hi]) hv

/-- Both searches, one after the other, return a model within the bounds, with its cost, which is not more than that of the model found by CMA alone. -/
theorem C166_both {P : Problem M} (hP : WellPosed P) {S : Searches} (hS : Trusted S) {draw : List Rat} {m : M} {fx : Rat}
    (h : P.optimizeBoth S draw = .ok (m, fx)) :
    Admissible P m fx ∧ ∃ m' fx', P.optimizeCma S draw = .ok (m', fx') ∧ fx ≤ fx' := by
  simp only [Problem.optimizeBoth] at h
  cases hc : P.optimizeCma S draw with
  | error e => rw [hc] at h; simp at h
  | ok c =>
    rw [hc] at h
    simp only at h
    cases hx : P.bounds.mapM fun b => P.attr c.1 b.name with
    | error e => rw [hx] at h; simp at h
    | ok x0 =>
      rw [hx] at h
      simp only at h
      cases hg : P.optimizeGradient S draw (some x0) with
      | error e => rw [hg] at h; simp at h
      | ok g =>
        rw [hg] at h
        simp only at h
        split at h
        · simp only [Except.ok.injEq] at h
          subst h
          exact ⟨C166_cma hP hS hc, m, fx, rfl, le_refl _⟩
        · rename_i hlt
          simp only [Except.ok.injEq] at h
          subst h
          exact ⟨C166_gradient hP hS hg, c.1, c.2, rfl, (not_le.1 hlt).le⟩

/-- An error of the search, of the model or of an attribute is not hidden: no model is returned. -/
theorem C166_errors {P : Problem M} {S : Searches} {draw : List Rat} :
    (∀ e, S.cma P.costAt draw P.cmaBounds = .error e → P.optimizeCma S draw = .error e ∧ P.optimizeBoth S draw = .error e) ∧
    (∀ x0 e, S.minimize P.costAt (x0.getD draw) P.scipyBounds = .error e → P.optimizeGradient S draw x0 = .error e) := by
  refine ⟨fun e h => ?_, fun x0 e h => by simp only [Problem.optimizeGradient, h]⟩
  have h1 : P.optimizeCma S draw = .error e := by simp only [Problem.optimizeCma, h]
  exact ⟨h1, by simp only [Problem.optimizeBoth, h1]⟩

/-- A problem whose models are the dictionaries of their attributes. -/
def plain (fixed : List (String × Rat)) (bounds : List Bound) (cost : List (String × Rat) → Rat) : Problem (List (String × Rat)) :=
  ⟨fixed, bounds, .ok, fun m => .ok (cost m), fun m a => match m.lookup a with | some v => .ok v | none => .error .attributeError⟩

/-- A fixed value is replaced when a bound has its name. -/
theorem C166_fixed_violated : (plain [("a", 5)] [⟨"a", 0, 1⟩] fun _ => 0).modelAt [1/2] = .ok [("a", 1/2)] := by decide +kernel

/-- With two bounds for an attribute, its value is within the last one only. -/
theorem C166_twice_violated : (plain [] [⟨"a", 0, 1⟩, ⟨"a", 10, 20⟩] fun _ => 0).modelAt [1/2, 1/2] = .ok [("a", 15)] := by decide +kernel

/-- The attributes of models are the values they were made from. -/
def Faithful (P : Problem M) : Prop :=
  ∀ attrs m, P.instantiate attrs = .ok m → ∀ b ∈ P.bounds, ∀ v, attrs.lookup b.name = some v → P.attr m b.name = .ok v

/-- The second search starts from the point the first found.  Proved when all bounds are 0 and 1: what is missing is that, with other bounds, it
starts from the values of the attributes, which are no dimensionless point. -/
theorem C166_start_partial {P : Problem M} (hP : WellPosed P) (hF : Faithful P) (hb : ∀ b ∈ P.bounds, b.lo = 0 ∧ b.hi = 1) {S : Searches}
    (hS : Trusted S) {draw : List Rat} {r : Found} {m : M} (hr : S.cma P.costAt draw P.cmaBounds = .ok r) (hm : P.modelAt r.1 = .ok m) :
    P.optimizeBoth S draw = match P.optimizeGradient S draw (some r.1) with
      | .error e => .error e
      | .ok g => if r.2 ≤ g.2 then .ok (m, r.2) else .ok g := by
  obtain ⟨h1, -, -⟩ := hS.cma _ _ _ _ hr
  have hl : r.1.length = P.bounds.length := by simpa [Problem.cmaBounds] using h1
  have hx : (P.bounds.mapM fun b => P.attr m b.name) = .ok r.1 := by
    have hmap : ∀ (l : List Bound) (xs : List Rat), l.length = xs.length →
        (∀ (i : Nat) (b : Bound) (x : Rat), l[i]? = some b → xs[i]? = some x → P.attr m b.name = .ok x) →
        (l.mapM fun b => P.attr m b.name) = .ok xs := by
      intro l
      induction l with
      | nil => intro xs hl _; rw [List.eq_nil_of_length_eq_zero hl.symm]; rfl
      | cons b l ih =>
        intro xs hl h
        match xs, hl with
        | x :: xs, hl =>
          rw [List.mapM_cons, h 0 b x rfl rfl, ih xs (by simpa using hl) fun i b' x' h1 h2 => h (i + 1) b' x' h1 h2]
          rfl
    refine hmap _ _ hl.symm fun i b x hi hxi => ?_
    obtain ⟨hlen, hv⟩ := C61_vector hl.symm
    obtain ⟨v, hv1, hv2, -⟩ := hv i b x hi hxi
    obtain ⟨h0, h1⟩ := hb b (List.mem_of_getElem? hi)
    have hvx : v = x := by rw [hv2, Bound.toValue, h0, h1]; ring
    rw [hvx] at hv1
    exact hF _ m hm b (List.mem_of_getElem? hi) x (C61_bounded P.fixed hlen.symm hP.1 hi hv1)
  simp only [Problem.optimizeBoth, Problem.optimizeCma, hr, hm, hx]
  cases P.optimizeGradient S draw (some r.1) <;> rfl

/-- Searches that tell where they start: the first finds the lower bounds, the second stays where it starts. -/
def tellStart : Searches where
  minimize _ x0 _ := .ok (x0, -1)
  cma _ _ bs := .ok (bs.1, 5)

/-- The first search finds the point 0, the value 10 of the attribute; the second starts from the point 10, the value 110, out of the bounds. -/
theorem C166_start_violated : (plain [] [⟨"a", 10, 20⟩] fun _ => 0).optimizeCma tellStart [1/2] = .ok ([("a", 10)], 5) ∧
    (plain [] [⟨"a", 10, 20⟩] fun _ => 0).optimizeBoth tellStart [1/2] = .ok ([("a", 110)], -1) ∧
    (plain [] [⟨"a", 10, 20⟩] fun _ => 0).optimizeGradient tellStart [1/2] (some [0]) = .ok ([("a", 10)], -1) := by
  decide +kernel

/-- Searches that keep the first point, clipped into the bounds. -/
def still : Searches where
  minimize f x0 bs :=
    let x := (bs.zip (x0 ++ List.replicate bs.length 0)).map fun bx => max bx.1.1 (min bx.1.2 bx.2)
    if ∀ b ∈ bs, b.1 ≤ b.2 then (f x).map fun c => (x, c) else .error .valueError
  cma f _ bs := if bs.1.length = bs.2.length ∧ ∀ b ∈ bs.1.zip bs.2, b.1 ≤ b.2 then (f bs.1).map fun c => (bs.1, c) else .error .valueError

/-- Not vacuous: a problem well posed, and its optimization. -/
example : WellPosed (plain [("mass", 3)] [⟨"length", 10, 20⟩, ⟨"width", 0, 4⟩] fun _ => 0) ∧
    (plain [("mass", 3)] [⟨"length", 10, 20⟩, ⟨"width", 0, 4⟩] fun _ => 0).optimizeGradient still [1/2, 1/4] none =
      .ok ([("mass", 3), ("length", 15), ("width", 1)], 0) := by
  constructor
  · unfold WellPosed plain
    decide +kernel
  · decide +kernel

/-- Not vacuous: a problem with faithful models and bounds 0 and 1. -/
example : Faithful (plain [("mass", 3)] [⟨"length", 0, 1⟩, ⟨"width", 0, 1⟩] fun _ => 0) ∧
    WellPosed (plain [("mass", 3)] [⟨"length", 0, 1⟩, ⟨"width", 0, 1⟩] fun _ => 0) := by
  constructor
  · intro attrs m h b _ v hv
    simp only [plain, Except.ok.injEq] at h ⊢
    subst h
    rw [hv]
  · unfold WellPosed plain
    decide +kernel

/-- Not vacuous: these searches can be trusted. -/
example : Trusted still := by
  constructor
  · intro f x0 bs r h
    simp only [still] at h
    split at h
    · rename_i hb
      cases hf : f ((bs.zip (x0 ++ List.replicate bs.length 0)).map fun bx => max bx.1.1 (min bx.1.2 bx.2)) with
      | error e => rw [hf] at h; simp [Except.map] at h
      | ok c =>
        rw [hf] at h
        simp only [Except.map, Except.ok.injEq] at h
        subst h
        refine ⟨by simp, hf, fun i b x hi hx => ?_⟩
        rw [List.getElem?_map] at hx
        obtain ⟨bx, h1, rfl⟩ := Option.map_eq_some_iff.1 hx
        rw [List.getElem?_zip_eq_some] at h1
        rw [h1.1, Option.some.injEq] at hi
        subst hi
        exact ⟨le_max_left _ _, max_le (hb _ (List.mem_of_getElem? h1.1)) (min_le_left _ _)⟩
    · simp at h
  · intro f x0 bs r h
    simp only [still] at h
    split at h
    · rename_i hb
      cases hf : f bs.1 with
      | error e => rw [hf] at h; simp [Except.map] at h
      | ok c =>
        rw [hf] at h
        simp only [Except.map, Except.ok.injEq] at h
        subst h
        refine ⟨rfl, hf, fun i lo hi x h1 h2 h3 => ?_⟩
        rw [h1, Option.some.injEq] at h3
        subst h3
        exact ⟨le_refl _, hb.2 (lo, hi) (List.mem_iff_getElem?.2 ⟨i, by rw [List.getElem?_zip_eq_some]; exact ⟨h1, h2⟩⟩)⟩
    · simp at h

end DC.Num
