import Mathlib.Tactic.Linarith
import Mathlib.Tactic.FieldSimp
import Mathlib.Tactic.Positivity
import Mathlib.Data.List.Nodup
import Mathlib.Algebra.Order.Field.Rat
import Verif.Data.Sampling
import Verif.Data.SortProps
/-
Specification and properties of designs of experiments (C51, C90).
-/
namespace DC.Data

/-! ### Specification -/

/-- The `j`-th of the levels dividing the range of an attribute into equal parts, the single level being the lower bound. -/
def level (a : SAttr) (j : Nat) : Rat := if a.number = 1 then a.lo else a.lo + j * ((a.hi - a.lo) / ((a.number : Rat) - 1))

/-- A choice of a level for each sampled attribute. -/
def IsChoice (s : Sampler) (c : List Nat) : Prop := List.Forall₂ (fun j (a : SAttr) => j < a.number) c s.sampled

/-- The sample of a choice: the constants, then the chosen levels. -/
def sampleOf (s : Sampler) (c : List Nat) : List (String × Rat) :=
  s.constants ++ List.zipWith (fun (a : SAttr) j => (a.name, level a j)) s.sampled c

/-! ### Helpers -/

theorem dict_new {d : List (String × Rat)} {k : String} {v : Rat} (h : k ∉ d.map (·.1)) : Dict.set d k v = d ++ [(k, v)] := by
  induction d with
  | nil => rfl
  | cons p d ih =>
    obtain ⟨k', v'⟩ := p
    simp only [List.map_cons, List.mem_cons, not_or] at h
    unfold Dict.set
    rw [if_neg (Ne.symm h.1), ih h.2]
    rfl

theorem fold_new : ∀ (l d : List (String × Rat)), ((d ++ l).map (·.1)).Nodup → l.foldl (fun d p => Dict.set d p.1 p.2) d = d ++ l
  | [], d, _ => by simp
  | p :: l, d, h => by
    rw [List.foldl_cons, dict_new, fold_new l]
    · simp
    · simpa using h
    · intro hm
      rw [List.map_append, List.nodup_append] at h
      exact h.2.2 _ hm _ (by simp) rfl

theorem kwargs_eq {names : List String} {values : List Rat} (h : names.Nodup) (hl : names.length = values.length) :
    kwargs names values = names.zip values := by
  unfold kwargs
  rw [fold_new _ []]
  · simp
  · rw [List.nil_append]
    have : (names.zip values).map (·.1) = names := by
      rw [show (fun p : String × Rat => p.1) = Prod.fst from rfl, List.map_fst_zip (by omega)]
    rw [this]
    exact h

theorem mem_fullfactRows : ∀ (levels : List Nat) (row : List Nat), row ∈ fullfactRows levels ↔ List.Forall₂ (fun j l => j < l) row levels
  | [], row => by simp [fullfactRows]
  | l :: levels, row => by
    unfold fullfactRows
    simp only [List.mem_flatMap, List.mem_map, List.mem_range, mem_fullfactRows levels]
    constructor
    · rintro ⟨r, hr, j, hj, rfl⟩
      exact .cons hj hr
    · intro h
      cases h with
      | cons hj hr => exact ⟨_, hr, _, hj, rfl⟩

theorem nodup_fullfactRows : ∀ levels : List Nat, (fullfactRows levels).Nodup
  | [] => by simp [fullfactRows]
  | l :: levels => by
    unfold fullfactRows
    rw [List.nodup_flatMap]
    refine ⟨fun row _ => List.nodup_range.map fun i j h => by simpa using h, (nodup_fullfactRows levels).imp fun {r r'} hne => ?_⟩
    intro x hx hx'
    obtain ⟨j, -, rfl⟩ := List.mem_map.1 hx
    obtain ⟨j', -, h⟩ := List.mem_map.1 hx'
    simp only [List.cons.injEq] at h
    exact hne h.2.symm

theorem length_fullfactRows : ∀ levels : List Nat, (fullfactRows levels).length = levels.prod
  | [] => rfl
  | l :: levels => by
    unfold fullfactRows
    rw [List.length_flatMap, List.prod_cons, ← length_fullfactRows levels]
    generalize fullfactRows levels = rows
    induction rows with
    | nil => simp
    | cons r rows ih =>
      rw [List.map_cons, List.sum_cons, ih, List.length_map, List.length_range, List.length_cons]
      ring

theorem fullfactRows_ones (levels : List Nat) : ∀ n : Nat,
    fullfactRows (List.replicate n 1 ++ levels) = (fullfactRows levels).map (List.replicate n 0 ++ ·)
  | 0 => by simp
  | n + 1 => by
    rw [List.replicate_succ, List.cons_append, fullfactRows, fullfactRows_ones levels n]
    generalize fullfactRows levels = rows
    induction rows with
    | nil => rfl
    | cons r rows ih =>
      rw [List.map_cons, List.flatMap_cons, ih, List.map_cons]
      rfl

theorem grid_eq (s : Sampler) : s.grid s.instancesNumbers = s.constants.map (fun c => [c.2]) ++ s.sampled.map fun a => linspace a.lo a.hi a.number := by
  unfold Sampler.grid Sampler.instancesNumbers
  rw [List.take_left' (by simp), List.drop_left' (by simp)]
  congr 1
  · induction s.constants with
    | nil => rfl
    | cons c l ih => simp [List.replicate_succ, ih]
  · induction s.sampled with
    | nil => rfl
    | cons a l ih => simp [ih]

theorem linspace_get {a : SAttr} {j : Nat} (h : j < a.number) : Py.get (linspace a.lo a.hi a.number) (j : Int) = .ok (level a j) := by
  unfold linspace level
  by_cases h1 : a.number = 1
  · rw [if_pos h1, if_pos h1]
    have : j = 0 := by omega
    subst this
    rfl
  · rw [if_neg h1, if_neg h1, Py.get_nat, List.getElem?_map, List.getElem?_range h]
    rfl

theorem sampleValues_sampled : ∀ (sampled : List SAttr) (c : List Nat), List.Forall₂ (fun j (a : SAttr) => j < a.number) c sampled →
    sampleValues (sampled.map fun a => linspace a.lo a.hi a.number) c = .ok (List.zipWith (fun (a : SAttr) j => level a j) sampled c)
  | [], [], _ => rfl
  | a :: sampled, j :: c, h => by
    cases h with
    | cons hj hc =>
      have ih := sampleValues_sampled sampled c hc
      unfold sampleValues at ih ⊢
      rw [List.map_cons, List.zip_cons_cons, List.mapM_cons, ih]
      rw [linspace_get hj]
      rfl

theorem sampleValues_all (s : Sampler) {c : List Nat} (h : IsChoice s c) :
    sampleValues (s.grid s.instancesNumbers) (List.replicate s.constants.length 0 ++ c) =
      .ok (s.constants.map (·.2) ++ List.zipWith (fun (a : SAttr) j => level a j) s.sampled c) := by
  rw [grid_eq]
  induction s.constants with
  | nil => simpa using sampleValues_sampled s.sampled c h
  | cons p l ih =>
    unfold sampleValues at ih ⊢
    simp only [List.map_cons, List.length_cons, List.replicate_succ, List.cons_append, List.zip_cons_cons, List.mapM_cons]
    rw [ih]
    rfl

theorem zip_sample (s : Sampler) {c : List Nat} (h : c.length = s.sampled.length) :
    s.attributes.zip (s.constants.map (·.2) ++ List.zipWith (fun (a : SAttr) j => level a j) s.sampled c) = sampleOf s c := by
  unfold Sampler.attributes sampleOf
  rw [List.zip_append (by simp)]
  congr 1
  · induction s.constants with
    | nil => rfl
    | cons p l ih => simp [ih]
  · generalize s.sampled = l at h
    induction l generalizing c with
    | nil => simp
    | cons a l ih =>
      cases c with
      | nil => simp at h
      | cons j c => simpa using ih (by simpa using h)

theorem mapM_pure {α β ε : Type} {f : α → Except ε β} {g : α → β} : ∀ {l : List α}, (∀ x ∈ l, f x = .ok (g x)) → l.mapM f = .ok (l.map g)
  | [], _ => rfl
  | x :: l, h => by
    rw [List.mapM_cons, h x (.head _), mapM_pure fun y hy => h y (.tail _ hy)]
    rfl

/-! ### C51 -/

/-- The full factorial sampling of attributes with different names gives one sample per choice of levels: the list of all
choices, each once, is mapped to the samples. -/
theorem C51_grid {s : Sampler} (hn : s.attributes.Nodup) (hne : s.attributes ≠ []) :
    ∃ choices : List (List Nat), s.fullFactorial = .ok (choices.map (sampleOf s)) ∧ choices.Nodup ∧ (∀ c, c ∈ choices ↔ IsChoice s c) ∧
      choices.length = (s.sampled.map (·.number)).prod := by
  refine ⟨fullfactRows (s.sampled.map (·.number)), ?_, nodup_fullfactRows _, fun c => ?_, length_fullfactRows _⟩
  · have hl : s.instancesNumbers.length ≠ 0 := by
      intro h
      apply hne
      apply List.length_eq_zero_iff.1
      simp only [Sampler.instancesNumbers, List.length_append, List.length_replicate, List.length_map] at h
      simp only [Sampler.attributes, List.length_append, List.length_map]
      omega
    unfold Sampler.fullFactorial fullfact
    rw [if_neg hl]
    simp only [bind, Except.bind]
    have hrows : fullfactRows s.instancesNumbers = (fullfactRows (s.sampled.map (·.number))).map (List.replicate s.constants.length 0 ++ ·) :=
      fullfactRows_ones _ _
    rw [hrows, List.mapM_map]
    refine mapM_pure fun c hc => ?_
    have hc' : IsChoice s c := by
      have := (mem_fullfactRows _ _).1 hc
      rwa [List.forall₂_map_right_iff] at this
    have hlen := hc'.length_eq
    rw [Function.comp_apply, sampleValues_all s hc']
    show Except.ok _ = _
    rw [kwargs_eq hn (by simp [Sampler.attributes, hlen]), zip_sample s hlen]
  · rw [mem_fullfactRows, List.forall₂_map_right_iff]
    rfl

/-- Different choices give different samples if the bounds of the attributes having several levels are different. -/
theorem C51_distinct {s : Sampler} (hb : ∀ a ∈ s.sampled, 2 ≤ a.number → a.lo ≠ a.hi) {c c' : List Nat} (hc : IsChoice s c)
    (hc' : IsChoice s c') (h : sampleOf s c = sampleOf s c') : c = c' := by
  unfold sampleOf at h
  replace h := List.append_cancel_left h
  unfold IsChoice at hc hc'
  generalize s.sampled = l at hb hc hc' h
  induction l generalizing c c' with
  | nil => cases hc; cases hc'; rfl
  | cons a l ih =>
    cases hc with
    | cons hj hc =>
      cases hc' with
      | cons hj' hc' =>
        simp only [List.zipWith_cons_cons, List.cons.injEq, Prod.mk.injEq, true_and] at h
        rw [ih (fun a ha => hb a (.tail _ ha)) hc hc' h.2]
        congr 1
        have h1 := h.1
        unfold level at h1
        split at h1
        · omega
        · have h2 : 2 ≤ a.number := by omega
          have hne := hb a (.head _) h2
          have hq : ((a.number : Rat) - 1) ≠ 0 := by
            have : (2 : Rat) ≤ a.number := by exact_mod_cast h2
            linarith
          have hd : (a.hi - a.lo) / ((a.number : Rat) - 1) ≠ 0 := div_ne_zero (sub_ne_zero.2 (Ne.symm hne)) hq
          have := mul_right_cancel₀ hd (add_left_cancel h1)
          exact_mod_cast this

/-- With at least two levels, the first is the lower bound and the last is the upper bound; all are between the bounds. -/
theorem C51_bounds (a : SAttr) (h : 2 ≤ a.number) : level a 0 = a.lo ∧ level a (a.number - 1) = a.hi ∧
    (a.lo ≤ a.hi → ∀ j, j < a.number → a.lo ≤ level a j ∧ level a j ≤ a.hi) := by
  have h1 : a.number ≠ 1 := by omega
  have hq : (0 : Rat) < (a.number : Rat) - 1 := by
    have : (2 : Rat) ≤ a.number := by exact_mod_cast h
    linarith
  unfold level
  simp only [if_neg h1]
  refine ⟨by simp, ?_, fun hle j hj => ?_⟩
  · rw [Nat.cast_sub (by omega), Nat.cast_one, mul_div_cancel₀ _ hq.ne']
    ring
  · have hj' : (j : Rat) ≤ (a.number : Rat) - 1 := by
      have : (j : Rat) + 1 ≤ a.number := by exact_mod_cast hj
      linarith
    have hd : 0 ≤ (a.hi - a.lo) / ((a.number : Rat) - 1) := div_nonneg (by linarith) hq.le
    have hj0 : (0 : Rat) ≤ j := by positivity
    constructor
    · have := mul_nonneg hj0 hd
      linarith
    · have := mul_le_mul_of_nonneg_right hj' hd
      rw [mul_div_cancel₀ _ hq.ne'] at this
      linarith

/-- With a single level the upper bound is never reached. -/
theorem C51_single_violated : (Sampler.mk [⟨⟨"p", 150, 250⟩, 1⟩] [("q", 42)]).fullFactorial = .ok [[("q", 42), ("p", 150)]] := by decide +kernel

/-- Two sampled attributes of the same name: the same sample is given several times, and not one per choice. -/
theorem C51_names_violated : (Sampler.mk [⟨⟨"p", 0, 1⟩, 2⟩, ⟨⟨"p", 0, 1⟩, 2⟩] []).fullFactorial =
    .ok [[("p", 0)], [("p", 0)], [("p", 1)], [("p", 1)]] := by decide +kernel

/-- Without any attribute, a TypeError is raised. -/
theorem C51_empty (s : Sampler) (h : s.attributes = []) : s.fullFactorial = .error .typeError := by
  have h0 := congrArg List.length h
  simp only [Sampler.attributes, List.length_append, List.length_map, List.length_nil] at h0
  unfold Sampler.fullFactorial fullfact
  rw [if_pos (by simp only [Sampler.instancesNumbers, List.length_append, List.length_replicate, List.length_map]; omega)]
  rfl

example : (Sampler.mk [⟨⟨"p", 150, 250⟩, 3⟩, ⟨⟨"r", 0, 1⟩, 2⟩] [("q", 42)]).fullFactorial =
    .ok [[("q", 42), ("p", 150), ("r", 0)], [("q", 42), ("p", 200), ("r", 0)], [("q", 42), ("p", 250), ("r", 0)],
      [("q", 42), ("p", 150), ("r", 1)], [("q", 42), ("p", 200), ("r", 1)], [("q", 42), ("p", 250), ("r", 1)]] := by decide +kernel

/-! ### C90 -/

/-- The sample has the constants at their value and each sampled attribute at a value between its bounds. -/
def Within (s : Sampler) (d : List (String × Rat)) : Prop :=
  d.map (·.1) = s.attributes ∧ (∀ p ∈ s.constants, d.lookup p.1 = some p.2) ∧
    ∀ a ∈ s.sampled, ∃ v, d.lookup a.name = some v ∧ a.lo ≤ v ∧ v ≤ a.hi

theorem lookup_of_nodup {d : List (String × Rat)} (h : (d.map (·.1)).Nodup) {p : String × Rat} (hp : p ∈ d) : d.lookup p.1 = some p.2 := by
  induction d with
  | nil => simp at hp
  | cons q d ih =>
    rw [List.map_cons, List.nodup_cons] at h
    rcases List.mem_cons.1 hp with rfl | hp
    · obtain ⟨k, v⟩ := p
      simp
    · have : p.1 ≠ q.1 := fun he => h.1 (he ▸ List.mem_map.2 ⟨p, hp, rfl⟩)
      have hb : (p.1 == q.1) = false := by simpa using this
      show (match p.1 == q.1 with | true => some q.2 | false => d.lookup p.1) = some p.2
      rw [hb]
      exact ih h.2 hp

theorem zip_draw {s : Sampler} (f : SAttr → Rat → Rat) {row : List Rat} (hlen : s.sampled.length = row.length) :
    s.attributes.zip (s.constants.map (·.2) ++ List.zipWith f s.sampled row) =
      s.constants ++ List.zipWith (fun (a : SAttr) x => (a.name, f a x)) s.sampled row := by
  unfold Sampler.attributes
  rw [List.zip_append (by simp)]
  congr 1
  · induction s.constants with
    | nil => rfl
    | cons p l ih => simp [ih]
  · generalize s.sampled = l at hlen
    induction l generalizing row with
    | nil => simp
    | cons a l ih =>
      cases row with
      | nil => simp at hlen
      | cons x row => simpa using ih (by simpa using hlen)

theorem within_kwargs {s : Sampler} (hn : s.attributes.Nodup) {f : SAttr → Rat → Rat} {row : List Rat}
    (hf : List.Forall₂ (fun (a : SAttr) x => a.lo ≤ f a x ∧ f a x ≤ a.hi) s.sampled row) :
    Within s (kwargs s.attributes (s.constants.map (·.2) ++ List.zipWith f s.sampled row)) := by
  have hlen := hf.length_eq
  rw [kwargs_eq hn (by simp [Sampler.attributes, hlen])]
  have hz := zip_draw f hlen
  have hk : (s.constants ++ List.zipWith (fun (a : SAttr) x => (a.name, f a x)) s.sampled row).map (·.1) = s.attributes := by
    rw [← hz]
    rw [show (fun p : String × Rat => p.1) = Prod.fst from rfl, List.map_fst_zip]
    simp [Sampler.attributes, hlen]
  rw [hz]
  refine ⟨hk, fun p hp => lookup_of_nodup (by rw [hk]; exact hn) (List.mem_append_left _ hp), fun a ha => ?_⟩
  obtain ⟨i, hi, rfl⟩ := List.mem_iff_getElem.1 ha
  have hir : i < row.length := by omega
  have hb := (forall2_get.1 hf).2 i _ _ (List.getElem?_eq_getElem hi) (List.getElem?_eq_getElem hir)
  refine ⟨f s.sampled[i] row[i], ?_, hb⟩
  exact lookup_of_nodup (p := (s.sampled[i].name, f s.sampled[i] row[i])) (by rw [hk]; exact hn) (List.mem_append_right _ (by
    rw [List.mem_iff_getElem]
    exact ⟨i, by simp [hi, hir], by rw [List.getElem_zipWith]⟩))

/-- The samples of the unit hypercube used by the two random methods: as many numbers between 0 and 1 as sampled attributes. -/
def IsDraw (s : Sampler) (row : List Rat) : Prop := row.length = s.sampled.length ∧ ∀ x ∈ row, 0 ≤ x ∧ x ≤ 1

theorem draw_bounds {s : Sampler} {row : List Rat} (hr : IsDraw s row) (hb : ∀ a ∈ s.sampled, a.lo ≤ a.hi) {f : SAttr → Rat → Rat}
    (hf : ∀ a x, f a x = a.lo + x * (a.hi - a.lo)) : List.Forall₂ (fun (a : SAttr) x => a.lo ≤ f a x ∧ f a x ≤ a.hi) s.sampled row := by
  refine forall2_get.2 ⟨hr.1.symm, fun i a x ha hx => ?_⟩
  have h1 := hb a (List.mem_of_getElem? ha)
  obtain ⟨h2, h3⟩ := hr.2 x (List.mem_of_getElem? hx)
  rw [hf]
  constructor
  · nlinarith
  · nlinarith

/-- Latin hypercube and Monte-Carlo sampling give as many samples as asked, with the constants at their value and the sampled
attributes between their bounds. -/
theorem C90_within {s : Sampler} (hn : s.attributes.Nodup) (hb : ∀ a ∈ s.sampled, a.lo ≤ a.hi) {rows : List (List Rat)}
    (hr : ∀ row ∈ rows, IsDraw s row) :
    ((s.lhs rows).length = rows.length ∧ ∀ d ∈ s.lhs rows, Within s d) ∧
    (s.montecarlo rows).length = rows.length ∧ ∀ d ∈ s.montecarlo rows, Within s d := by
  refine ⟨⟨by simp [Sampler.lhs], fun d hd => ?_⟩, by simp [Sampler.montecarlo], fun d hd => ?_⟩
  · obtain ⟨row, hrow, rfl⟩ := List.mem_map.1 hd
    exact within_kwargs hn (draw_bounds (hr row hrow) hb fun a x => rfl)
  · obtain ⟨row, hrow, rfl⟩ := List.mem_map.1 hd
    exact within_kwargs hn (draw_bounds (hr row hrow) hb fun a x => by ring)

/-- The sample of a choice of levels has the constants at their value and the sampled attributes between their bounds. -/
theorem within_choice {s : Sampler} (hn : s.attributes.Nodup) (hb : ∀ a ∈ s.sampled, a.lo ≤ a.hi) {c : List Nat} (hc : IsChoice s c) : Within s (sampleOf s c) := by
  have hlen : s.sampled.length = c.length := hc.length_eq.symm
  let f : SAttr → Rat → Rat := fun a x => if a.number = 1 then a.lo else a.lo + x * ((a.hi - a.lo) / ((a.number : Rat) - 1))
  have hf : List.Forall₂ (fun (a : SAttr) x => a.lo ≤ f a x ∧ f a x ≤ a.hi) s.sampled (c.map fun n : Nat => (n : Rat)) := by
    refine forall2_get.2 ⟨by simpa using hlen, fun i a x ha hx => ?_⟩
    have h1 := hb a (List.mem_of_getElem? ha)
    rw [List.getElem?_map] at hx
    cases hj : c[i]? with
    | none => rw [hj] at hx; simp at hx
    | some j =>
      rw [hj] at hx
      simp only [Option.map_some, Option.some.injEq] at hx
      subst hx
      have hlt : j < a.number := (forall2_get.1 hc).2 i _ _ hj ha
      by_cases hone : a.number = 1
      · simp only [f, hone, if_true]
        exact ⟨le_refl _, h1⟩
      · have h2 := (C51_bounds a (by omega)).2.2 h1 j hlt
        simpa only [level, f, hone, if_false] using h2
  have h := within_kwargs hn hf
  rw [kwargs_eq hn (by simp [Sampler.attributes, hlen]), zip_draw f (by simpa using hlen)] at h
  have : sampleOf s c = s.constants ++ List.zipWith (fun (a : SAttr) x => (a.name, f a x)) s.sampled (c.map fun n : Nat => (n : Rat)) := by
    rw [sampleOf, List.zipWith_map_right]
    rfl
  rw [this]
  exact h

/-- Whatever the method, a design of experiments has all its samples with the constants at their value and the sampled attributes between
their bounds: as many as choices of levels for the full factorial, which does not use the number of samples asked for, and as many as asked
for by the two others (none for a negative number).  Another method raises NotImplementedError. -/
theorem C90_doe {s : Sampler} (hn : s.attributes.Nodup) (hne : s.attributes ≠ []) (hb : ∀ a ∈ s.sampled, a.lo ≤ a.hi) {draw : Nat → List (List Rat)}
    (hd : ∀ n, (draw n).length = n ∧ ∀ row ∈ draw n, IsDraw s row) (samples : Int) (method : String) :
    (method = "fullfact" → ∃ ds, s.makeDoe draw samples method = .ok ds ∧ ds.length = (s.sampled.map (·.number)).prod ∧ ∀ d ∈ ds, Within s d) ∧
    (method = "lhs" ∨ method = "montecarlo" → ∃ ds, s.makeDoe draw samples method = .ok ds ∧ ds.length = samples.toNat ∧ ∀ d ∈ ds, Within s d) ∧
    (method ≠ "fullfact" → method ≠ "lhs" → method ≠ "montecarlo" → s.makeDoe draw samples method = .error .notImplemented) := by
  obtain ⟨⟨h1, h2⟩, h3, h4⟩ := C90_within hn hb (hd samples.toNat).2
  refine ⟨?_, ?_, ?_⟩
  · rintro rfl
    obtain ⟨cs, e, -, hm, hl⟩ := C51_grid hn hne
    refine ⟨cs.map (sampleOf s), by simpa [Sampler.makeDoe] using e, by simpa using hl, fun d hd => ?_⟩
    obtain ⟨c, hc, rfl⟩ := List.mem_map.1 hd
    exact within_choice hn hb ((hm c).1 hc)
  · rintro (rfl | rfl)
    · exact ⟨_, rfl, by rw [h1, (hd _).1], h2⟩
    · exact ⟨_, rfl, by rw [h3, (hd _).1], h4⟩
  · intro a b c
    simp [Sampler.makeDoe, a, b, c]

/-- A sampler and draws which meet the hypotheses. -/
example : (∀ n, (List.replicate n [(1/2 : Rat)]).length = n ∧ ∀ row ∈ List.replicate n [(1/2 : Rat)], IsDraw (Sampler.mk [⟨⟨"p", 150, 250⟩, 3⟩] [("q", 42)]) row) ∧
    (Sampler.mk [⟨⟨"p", 150, 250⟩, 3⟩] [("q", 42)]).makeDoe (fun n => List.replicate n [1/2]) 2 "montecarlo" = .ok [[("q", 42), ("p", 200)], [("q", 42), ("p", 200)]] ∧
    (Sampler.mk [⟨⟨"p", 150, 250⟩, 3⟩] [("q", 42)]).makeDoe (fun n => List.replicate n [1/2]) 2 "fullfact" =
      .ok [[("q", 42), ("p", 150)], [("q", 42), ("p", 200)], [("q", 42), ("p", 250)]] := by
  refine ⟨fun n => ⟨by simp, fun row hr => ?_⟩, by decide +kernel, by decide +kernel⟩
  obtain rfl := (List.mem_replicate.1 hr).2
  refine ⟨rfl, fun x hx => ?_⟩
  obtain rfl := List.mem_singleton.1 hx
  exact ⟨by decide +kernel, by decide +kernel⟩

/-- An attribute which is constant and sampled takes the sampled value: the constant is lost. -/
theorem C90_names_violated : (Sampler.mk [⟨⟨"p", 0, 1⟩, 2⟩] [("p", 42)]).lhs [[1/2]] = [[("p", 1/2)]] := by decide +kernel

example : (Sampler.mk [⟨⟨"p", 150, 250⟩, 2⟩] [("q", 42)]).lhs [[1/4], [3/4]] =
    [[("q", 42), ("p", 175)], [("q", 42), ("p", 225)]] := by decide +kernel

end DC.Data
