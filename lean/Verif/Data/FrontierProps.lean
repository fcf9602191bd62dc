import Mathlib.Tactic.FieldSimp
import Mathlib.Tactic.Ring
import Verif.Data.Frontier
import Verif.Data.ParetoProps
import Verif.Util.PyList
/-
Specification and properties of Pareto frontiers (C156).
-/
namespace DC.Data

set_option linter.unusedSectionVars false

variable {F : Type} [Field F] [LinearOrder F] [IsStrictOrderedRing F]

/-! ### Specification -/

/-- A point is not below the line through the two ends of a segment. -/
def NotBelow (s : Segment F) (px py : F) : Prop := (s.2.2 - s.1.2) * (px - s.1.1) ≤ (py - s.1.2) * (s.2.1 - s.1.1)

/-- One object is the best one, both for the costs `x` and `y`. -/
def BestForBoth (costs : List (List F)) (x y : Nat) : Prop :=
  ∃ a ∈ costs, ∀ b ∈ costs, cell a x ≤ cell b x ∧ cell a y ≤ cell b y

/-! ### Least elements -/

theorem best_spec {α : Type} (key : α → F) : ∀ {l : List α}, l ≠ [] → ∃ b, best key l = some b ∧ b ∈ l ∧ ∀ x ∈ l, key b ≤ key x
  | [], h => absurd rfl h
  | [x], _ => ⟨x, rfl, .head _, by simp⟩
  | x :: y :: l, _ => by
    obtain ⟨b, h1, h2, h3⟩ := best_spec key (l := y :: l) (by simp)
    rw [best, h1]
    dsimp only
    by_cases h : key b < key x
    · rw [if_pos h]
      refine ⟨b, rfl, .tail _ h2, fun z hz => ?_⟩
      rcases List.mem_cons.1 hz with rfl | hz
      · exact h.le
      · exact h3 z hz
    · rw [if_neg h]
      refine ⟨x, rfl, .head _, fun z hz => ?_⟩
      rcases List.mem_cons.1 hz with rfl | hz
      · exact le_rfl
      · exact (not_lt.1 h).trans (h3 z hz)

theorem best_nil {α : Type} (key : α → F) : best key ([] : List α) = none := rfl

theorem cell_eq {r : List F} {k : Nat} {v : F} (h : r[k]? = some v) : cell r k = v := by rw [cell, h]; rfl

theorem cell_get {r : List F} {k : Nat} (h : k < r.length) : r[k]? = some (cell r k) := by
  rw [cell, List.getElem?_eq_getElem h]
  rfl

theorem least_spec {rows : List (List F)} (hne : rows ≠ []) (k : Nat) : (∃ r ∈ rows, least rows k = cell r k) ∧ ∀ r ∈ rows, least rows k ≤ cell r k := by
  obtain ⟨b, h1, h2, h3⟩ := best_spec (id : F → F) (l := rows.map (cell · k)) (by simpa using hne)
  have : least rows k = b := by rw [least, h1]; rfl
  rw [this]
  obtain ⟨r, hr, rfl⟩ := List.mem_map.1 h2
  exact ⟨⟨r, hr, rfl⟩, fun q hq => h3 _ (List.mem_map_of_mem hq)⟩

theorem greatest_spec {rows : List (List F)} (hne : rows ≠ []) (k : Nat) :
    (∃ r ∈ rows, greatest rows k = cell r k) ∧ ∀ r ∈ rows, cell r k ≤ greatest rows k := by
  obtain ⟨b, h1, h2, h3⟩ := best_spec (fun x : F => -x) (l := rows.map (cell · k)) (by simpa using hne)
  have : greatest rows k = b := by rw [greatest, h1]; rfl
  rw [this]
  obtain ⟨r, hr, rfl⟩ := List.mem_map.1 h2
  exact ⟨⟨r, hr, rfl⟩, fun q hq => by have := h3 _ (List.mem_map_of_mem hq); linarith⟩

/-! ### Pareto points -/

/-- Every object is dominated by, or equal to, a Pareto point. -/
theorem covered {sd : List F → F} (hs : IsScale sd) {m : Nat} {costs : List (List F)} (hr : Rect m costs) {b : List F} (hb : b ∈ costs) :
    ∃ a ∈ compress costs (paretoIndexes sd costs), NoWorse a b := by
  obtain ⟨j, hj⟩ := List.mem_iff_getElem?.1 hb
  have hlt : j < (paretoIndexes sd costs).length := by
    rw [pareto_length hs hr]
    exact (List.getElem?_eq_some_iff.1 hj).1
  cases hk : (paretoIndexes sd costs)[j] with
  | true =>
    refine ⟨b, mem_compress.2 ⟨j, hj, ?_⟩, NoWorse.refl b⟩
    rw [List.getElem?_eq_getElem hlt, hk]
  | false =>
    obtain ⟨i, a, ha, hi, h⟩ := (C43_pareto hs hr).2 j b hj (by rw [List.getElem?_eq_getElem hlt, hk])
    refine ⟨a, mem_compress.2 ⟨i, ha, hi⟩, ?_⟩
    rcases h with h | rfl
    · exact h.1
    · exact NoWorse.refl a

theorem pareto_sub {sd : List F → F} {costs : List (List F)} {a : List F} (h : a ∈ compress costs (paretoIndexes sd costs)) : a ∈ costs := by
  obtain ⟨i, hi, -⟩ := mem_compress.1 h
  exact List.mem_of_getElem? hi

theorem NoWorse.cell {m : Nat} {a b : List F} (h : NoWorse a b) (ha : a.length = m) (hb : b.length = m) {k : Nat} (hk : k < m) : cell a k ≤ cell b k :=
  h k _ _ (cell_get (by omega)) (cell_get (by omega))

/-- The least cost is the one of a Pareto point. -/
theorem least_pareto {sd : List F → F} (hs : IsScale sd) {m : Nat} {costs : List (List F)} (hr : Rect m costs) (hne : costs ≠ []) {k : Nat} (hk : k < m) :
    ∃ a ∈ compress costs (paretoIndexes sd costs), cell a k = least costs k := by
  obtain ⟨⟨r, hrm, h⟩, hle⟩ := least_spec hne k
  obtain ⟨a, ha, hab⟩ := covered hs hr hrm
  refine ⟨a, ha, le_antisymm ?_ (hle a (pareto_sub ha))⟩
  rw [h]
  exact hab.cell (hr a (pareto_sub ha)) (hr r hrm) hk

/-! ### One frontier -/

/-- The line through the Pareto point least in `y` whose slope is the least one in absolute value. -/
theorem frontier_line {sd : List F → F} (hs : IsScale sd) {m : Nat} {costs : List (List F)} (hr : Rect m costs) (hne : costs ≠ []) {x y : Nat} (hx : x < m)
    (hy : y < m) (hb : ¬ BestForBoth costs x y) (maxX : F) :
    ∃ (p q : List F) (a : F), p ∈ compress costs (paretoIndexes sd costs) ∧ q ∈ compress costs (paretoIndexes sd costs) ∧
      cell p y = least costs y ∧ least costs x < cell p x ∧ cell q x ≠ cell p x ∧ a * (cell p x - cell q x) = cell p y - cell q y ∧
      (∀ r ∈ compress costs (paretoIndexes sd costs), a * (cell r x - cell p x) + cell p y ≤ cell r y) ∧
      frontier2d x y (compress costs (paretoIndexes sd costs)) maxX (least costs x) (least costs y) =
        .ok ((least costs x, a * (least costs x - cell p x) + cell p y), (maxX, a * (maxX - cell p x) + cell p y)) := by
  generalize hP : compress costs (paretoIndexes sd costs) = P
  have hPne : P ≠ [] := by
    obtain ⟨a, ha, -⟩ := least_pareto hs hr hne hx
    rw [hP] at ha
    exact List.ne_nil_of_mem ha
  obtain ⟨p, hp1, hp2, hp3⟩ := best_spec (cell · y) hPne
  have hpy : cell p y = least costs y := by
    obtain ⟨a, ha, hay⟩ := least_pareto hs hr hne hy
    rw [hP] at ha
    apply le_antisymm
    · rw [← hay]
      exact hp3 a ha
    · exact (least_spec hne y).2 p (pareto_sub (hP ▸ hp2))
  have hpx : least costs x < cell p x := by
    have h1 := (least_spec hne x).2 p (pareto_sub (hP ▸ hp2))
    rcases h1.lt_or_eq with h | h
    · exact h
    · exfalso
      apply hb
      refine ⟨p, pareto_sub (hP ▸ hp2), fun b hb => ⟨?_, ?_⟩⟩
      · rw [← h]; exact (least_spec hne x).2 b hb
      · rw [hpy]; exact (least_spec hne y).2 b hb
  obtain ⟨q0, hq0, hq0x⟩ := least_pareto hs hr hne hx
  rw [hP] at hq0
  have hlines : (((P.filter fun r => cell p x - cell r x ≠ 0).map fun r => (cell p y - cell r y) / (cell p x - cell r x)).map
      fun a => (a, cell p y - a * cell p x)) ≠ [] := by
    apply List.ne_nil_of_mem (a := ((cell p y - cell q0 y) / (cell p x - cell q0 x), cell p y - ((cell p y - cell q0 y) / (cell p x - cell q0 x)) * cell p x))
    apply List.mem_map_of_mem (f := fun a => (a, cell p y - a * cell p x))
    apply List.mem_map_of_mem (f := fun r => (cell p y - cell r y) / (cell p x - cell r x))
    rw [List.mem_filter]
    refine ⟨hq0, ?_⟩
    rw [hq0x]
    simp only [ne_eq, decide_not, Bool.not_eq_eq_eq_not, Bool.not_true, decide_eq_false_iff_not]
    intro h
    linarith
  obtain ⟨l, hl1, hl2, hl3⟩ := best_spec (fun l : F × F => |l.1 * least costs x + l.2 - least costs y|) hlines
  obtain ⟨a, ha, rfl⟩ := List.mem_map.1 hl2
  obtain ⟨q, hq, rfl⟩ := List.mem_map.1 ha
  rw [List.mem_filter] at hq
  have hqx : cell p x - cell q x ≠ 0 := by simpa using hq.2
  refine ⟨p, q, (cell p y - cell q y) / (cell p x - cell q x), hp2, hq.1, hpy, hpx, ?_, ?_, ?_, ?_⟩
  · intro h
    apply hqx
    rw [h, sub_self]
  · rw [div_mul_cancel₀ _ hqx]
  · intro r hr'
    have hry := hp3 r hr'
    by_cases hrx : cell p x - cell r x = 0
    · have : cell r x - cell p x = 0 := by linarith
      rw [this, mul_zero, zero_add]
      exact hry
    · have hmem : ((cell p y - cell r y) / (cell p x - cell r x), cell p y - ((cell p y - cell r y) / (cell p x - cell r x)) * cell p x) ∈
          (((P.filter fun r => cell p x - cell r x ≠ 0).map fun r => (cell p y - cell r y) / (cell p x - cell r x)).map
            fun a => (a, cell p y - a * cell p x)) := by
        apply List.mem_map_of_mem (f := fun a => (a, cell p y - a * cell p x))
        apply List.mem_map_of_mem (f := fun r => (cell p y - cell r y) / (cell p x - cell r x))
        rw [List.mem_filter]
        exact ⟨hr', by simpa using hrx⟩
      have h3 := hl3 _ hmem
      dsimp only at h3
      rw [hpy] at h3
      generalize hA : (least costs y - cell q y) / (cell p x - cell q x) = A at h3
      generalize hS : (least costs y - cell r y) / (cell p x - cell r x) = S at h3
      have e1 : A * least costs x + (least costs y - A * cell p x) - least costs y = A * (least costs x - cell p x) := by ring
      have e2 : S * least costs x + (least costs y - S * cell p x) - least costs y = S * (least costs x - cell p x) := by ring
      rw [e1, e2, abs_mul, abs_mul] at h3
      have hpos : 0 < |least costs x - cell p x| := abs_pos.2 (by intro h; linarith)
      have hAS : |A| ≤ |S| := le_of_mul_le_mul_right h3 hpos
      rw [hpy, hA]
      have hSr : S * (cell r x - cell p x) = cell r y - least costs y := by
        rw [← hS, div_mul_eq_mul_div, div_eq_iff hrx]
        ring
      have h5 : A * (cell r x - cell p x) ≤ |A| * |cell r x - cell p x| := by
        rw [← abs_mul]; exact le_abs_self _
      have h6 : |A| * |cell r x - cell p x| ≤ |S| * |cell r x - cell p x| := mul_le_mul_of_nonneg_right hAS (abs_nonneg _)
      have h7 : |S| * |cell r x - cell p x| = cell r y - least costs y := by
        rw [← abs_mul, hSr, abs_of_nonneg]
        rw [← hpy]
        linarith
      linarith
  · rw [frontier2d, hp1]
    dsimp only
    rw [hl1]
    dsimp only
    simp only [Except.ok.injEq, Prod.mk.injEq, true_and]
    constructor <;> ring

theorem notBelow_line {x0 x1 a px py b c : F} (h : x0 ≤ x1) (h1 : a * (px - c) + b ≤ py) :
    NotBelow ((x0, a * (x0 - c) + b), (x1, a * (x1 - c) + b)) px py := by
  unfold NotBelow
  dsimp only
  have e : (a * (x1 - c) + b - (a * (x0 - c) + b)) * (px - x0) = (a * (px - c) + b - (a * (x0 - c) + b)) * (x1 - x0) := by ring
  rw [e]
  apply mul_le_mul_of_nonneg_right _ (by linarith)
  linarith

/-! ### C156 -/

theorem mem_dimPairs {m x y : Nat} : (x, y) ∈ dimPairs m ↔ x < m ∧ y < m ∧ x ≠ y := by
  simp only [dimPairs, List.mem_flatMap, List.mem_range, List.mem_map, List.mem_filter, Prod.mk.injEq, decide_eq_true_eq]
  constructor
  · rintro ⟨a, ha, b, ⟨hb, hab⟩, rfl, rfl⟩
    exact ⟨ha, hb, hab⟩
  · rintro ⟨h1, h2, h3⟩
    exact ⟨x, h1, y, ⟨h2, h3⟩, rfl, rfl⟩

theorem rows_of {sd : List F → F} {n m : Nat} {costs rows : List (List F)} (hc : checkCosts n costs = .ok rows) (hr : Rect m rows) (hne : rows ≠ []) :
    paretoFrontiers sd n costs = (dimPairs m).mapM fun xy =>
      frontier2d xy.1 xy.2 (compress rows (paretoIndexes sd rows)) (greatest rows xy.1) (least rows xy.1) (least rows xy.2) := by
  obtain ⟨r, rest, rfl⟩ := List.exists_cons_of_ne_nil hne
  rw [paretoFrontiers, hc]
  dsimp only
  rw [hr r (.head _)]

theorem mapM_all {α β : Type} {f : α → Except PyErr β} : ∀ {l : List α}, (∀ x ∈ l, ∃ y, f x = .ok y) →
    ∃ ys, l.mapM f = .ok ys ∧ List.Forall₂ (fun x y => f x = .ok y) l ys
  | [], _ => ⟨[], rfl, .nil⟩
  | x :: l, h => by
    obtain ⟨y, hy⟩ := h x (.head _)
    obtain ⟨ys, h1, h2⟩ := mapM_all fun z hz => h z (.tail _ hz)
    refine ⟨y :: ys, ?_, .cons hy h2⟩
    rw [List.mapM_cons, hy, h1]
    rfl

/-- The ends of a frontier: from the least to the greatest of the costs of the objects in its first dimension. -/
def Spans (rows : List (List F)) (x : Nat) (s : Segment F) : Prop :=
  (∃ r ∈ rows, s.1.1 = cell r x) ∧ (∀ r ∈ rows, s.1.1 ≤ cell r x) ∧ (∃ r ∈ rows, s.2.1 = cell r x) ∧ ∀ r ∈ rows, cell r x ≤ s.2.1

/-- For costs of any number of dimensions, in no pair of which one object is the best one for both, there is one frontier for each
pair of different dimensions; it goes from the least to the greatest cost in the first one, and no Pareto point is below it.
Missing for the full property: dominated objects (all objects, for two costs, in `C156_two_partial`; `C156_dominated_violated`), and
the objects which are the best ones for both costs (`C156_single_violated`, `C156_best_violated`). -/
theorem C156_partial {sd : List F → F} (hs : IsScale sd) {n m : Nat} {costs rows : List (List F)} (hc : checkCosts n costs = .ok rows) (hr : Rect m rows)
    (hne : rows ≠ []) (hb : ∀ x y, x < m → y < m → x ≠ y → ¬ BestForBoth rows x y) :
    ∃ fs, paretoFrontiers sd n costs = .ok fs ∧ List.Forall₂ (fun (xy : Nat × Nat) (s : Segment F) => Spans rows xy.1 s ∧
      ∀ r ∈ rows, (∀ a ∈ rows, ¬ Dominates a r) → NotBelow s (cell r xy.1) (cell r xy.2)) (dimPairs m) fs := by
  rw [rows_of hc hr hne]
  have key : ∀ xy ∈ dimPairs m, ∃ s, frontier2d xy.1 xy.2 (compress rows (paretoIndexes sd rows)) (greatest rows xy.1) (least rows xy.1) (least rows xy.2) = .ok s ∧
      (Spans rows xy.1 s ∧ ∀ r ∈ rows, (∀ a ∈ rows, ¬ Dominates a r) → NotBelow s (cell r xy.1) (cell r xy.2)) := by
    rintro ⟨x, y⟩ hxy
    obtain ⟨hx, hy, hne'⟩ := mem_dimPairs.1 hxy
    obtain ⟨p, q, a, hp, hq, h1, h2, h3, h4, h5, h6⟩ := frontier_line hs hr hne hx hy (hb x y hx hy hne') (greatest rows x)
    refine ⟨_, h6, ⟨?_, ?_, ?_, ?_⟩, ?_⟩
    · exact (least_spec hne x).1
    · exact (least_spec hne x).2
    · exact (greatest_spec hne x).1
    · exact (greatest_spec hne x).2
    · intro r hrm hnd
      obtain ⟨b, hb, hbr⟩ := covered hs hr hrm
      have hbe : b = r := by
        by_contra hne
        exact hnd b (pareto_sub hb) ((dominates_iff ((hr b (pareto_sub hb)).trans (hr r hrm).symm)).2 ⟨hbr, hne⟩)
      subst hbe
      exact notBelow_line ((least_spec hne x).2 b hrm |>.trans ((greatest_spec hne x).2 b hrm)) (h5 b hb)
  obtain ⟨fs, h1, h2⟩ := mapM_all (f := fun xy : Nat × Nat =>
    frontier2d xy.1 xy.2 (compress rows (paretoIndexes sd rows)) (greatest rows xy.1) (least rows xy.1) (least rows xy.2)) (l := dimPairs m)
    (fun xy h => (key xy h).imp fun _ h => h.1)
  refine ⟨fs, h1, ?_⟩
  clear h1
  have : ∀ xy ∈ dimPairs m, xy ∈ dimPairs m := fun _ h => h
  revert h2 this
  generalize hD : dimPairs m = D at key ⊢
  intro h2 _
  clear hD
  induction h2 with
  | nil => exact .nil
  | cons hxs _ ih =>
    refine .cons ?_ (ih (fun xy h => key xy (.tail _ h)) (fun _ h => h))
    obtain ⟨s, hs1, hs2⟩ := key _ (.head _)
    rw [hs1] at hxs
    obtain rfl := Except.ok.inj hxs
    exact hs2

/-- With two costs, when no object is the best one for both, there are two frontiers and no object at all is below one of them.
Missing: an object which is the best one for both costs, and other numbers of costs (`C156_single_violated`, `C156_best_violated`, `C156_dominated_violated`). -/
theorem C156_two_partial {sd : List F → F} (hs : IsScale sd) {n : Nat} {costs rows : List (List F)} (hc : checkCosts n costs = .ok rows) (hr : Rect 2 rows)
    (hne : rows ≠ []) (hb : ¬ BestForBoth rows 0 1) :
    ∃ s t, paretoFrontiers sd n costs = .ok [s, t] ∧ Spans rows 0 s ∧ Spans rows 1 t ∧
      ∀ r ∈ rows, NotBelow s (cell r 0) (cell r 1) ∧ NotBelow t (cell r 1) (cell r 0) := by
  rw [rows_of hc hr hne]
  have key : ∀ x y : Nat, (x = 0 ∧ y = 1) ∨ (x = 1 ∧ y = 0) → ∃ s,
      frontier2d x y (compress rows (paretoIndexes sd rows)) (greatest rows x) (least rows x) (least rows y) = .ok s ∧
      Spans rows x s ∧ ∀ r ∈ rows, NotBelow s (cell r x) (cell r y) := by
    intro x y hxy
    have hx : x < 2 := by omega
    have hy : y < 2 := by omega
    have hb' : ¬ BestForBoth rows x y := by
      rcases hxy with ⟨rfl, rfl⟩ | ⟨rfl, rfl⟩
      · exact hb
      · rintro ⟨a, ha, h⟩
        exact hb ⟨a, ha, fun b hb => (h b hb).symm⟩
    obtain ⟨p, q, a, hp, hq, h1, h2, h3, h4, h5, h6⟩ := frontier_line hs hr hne hx hy hb' (greatest rows x)
    refine ⟨_, h6, ⟨(least_spec hne x).1, (least_spec hne x).2, (greatest_spec hne x).1, (greatest_spec hne x).2⟩, ?_⟩
    have hpr := pareto_sub hp
    have hqr := pareto_sub hq
    -- the slope is not positive
    have hqy : cell p y ≤ cell q y := h1 ▸ (least_spec hne y).2 q hqr
    have hqp : cell q x < cell p x := by
      rcases lt_or_gt_of_ne h3 with h | h
      · exact h
      · exfalso
        obtain ⟨j, hj, hk⟩ := mem_compress.1 hq
        refine ((C43_exact hs hr hj).1 hk).1 p hpr ⟨?_, x, cell p x, cell q x, cell_get (by rw [hr p hpr]; exact hx), cell_get (by rw [hr q hqr]; exact hx), h⟩
        intro k u v hu hv
        have hk2 : k < 2 := by
          rw [← hr p hpr]
          exact (List.getElem?_eq_some_iff.1 hu).1
        rw [← cell_eq hu, ← cell_eq hv]
        have : k = x ∨ k = y := by omega
        rcases this with rfl | rfl
        · exact h.le
        · exact hqy
    have ha : a ≤ 0 := by
      by_contra hpos
      have : 0 < a * (cell p x - cell q x) := mul_pos (not_le.1 hpos) (by linarith)
      linarith
    intro r hrm
    obtain ⟨b, hb, hbr⟩ := covered hs hr hrm
    apply notBelow_line ((least_spec hne x).2 r hrm |>.trans ((greatest_spec hne x).2 r hrm))
    have hbx := hbr.cell (hr b (pareto_sub hb)) (hr r hrm) hx
    have hby := hbr.cell (hr b (pareto_sub hb)) (hr r hrm) hy
    have := h5 b hb
    have h8 : a * (cell r x - cell p x) ≤ a * (cell b x - cell p x) := mul_le_mul_of_nonpos_left (by linarith) ha
    linarith
  obtain ⟨s, hs1, hs2, hs3⟩ := key 0 1 (.inl ⟨rfl, rfl⟩)
  obtain ⟨t, ht1, ht2, ht3⟩ := key 1 0 (.inr ⟨rfl, rfl⟩)
  refine ⟨s, t, ?_, hs2, ht2, fun r h => ⟨hs3 r h, ht3 r h⟩⟩
  have : dimPairs 2 = [(0, 1), (1, 0)] := by decide
  rw [this, List.mapM_cons, List.mapM_cons, List.mapM_nil, hs1, ht1]
  rfl

/-- Whenever one object is at least as good as all the others in every cost, no frontier is given: a ValueError is raised. -/
theorem C156_single_violated {sd : List F → F} (hs : IsScale sd) {n m : Nat} {costs rows : List (List F)} (hc : checkCosts n costs = .ok rows)
    (hr : Rect m rows) (hm : 2 ≤ m) {a : List F} (ha : a ∈ rows) (hbest : ∀ b ∈ rows, NoWorse a b) : paretoFrontiers sd n costs = .error .valueError := by
  have hne : rows ≠ [] := List.ne_nil_of_mem ha
  rw [rows_of hc hr hne]
  have hall : ∀ b ∈ compress rows (paretoIndexes sd rows), b = a := by
    intro b hb
    obtain ⟨j, hj, hk⟩ := mem_compress.1 hb
    by_contra hne
    exact ((C43_exact hs hr hj).1 hk).1 a ha ((dominates_iff ((hr a ha).trans (hr b (pareto_sub hb)).symm)).2
      ⟨hbest b (pareto_sub hb), fun h => hne h.symm⟩)
  have hfr : ∀ (x y : Nat) (u v w : F), frontier2d x y (compress rows (paretoIndexes sd rows)) u v w = .error .valueError := by
    intro x y u v w
    rw [frontier2d]
    split
    · rfl
    · rename_i p hp
      have hPne : compress rows (paretoIndexes sd rows) ≠ [] := by
        intro h
        rw [h] at hp
        simp [best] at hp
      obtain ⟨p', hp1, hp2, -⟩ := best_spec (fun r : List F => cell r y) hPne
      have hpp : p' = p := by
        have := hp1.symm.trans hp
        simpa using this
      subst hpp
      have hnil : ((compress rows (paretoIndexes sd rows)).filter fun r => decide (cell p' x - cell r x ≠ 0)) = [] := by
        rw [List.filter_eq_nil_iff]
        intro r hrm
        rw [hall r hrm, hall p' hp2]
        simp
      rw [hnil]
      rfl
  obtain ⟨k, rfl⟩ : ∃ k, m = k + 2 := ⟨m - 2, by omega⟩
  cases hD : dimPairs (k + 2) with
  | nil =>
    have : ((0, 1) : Nat × Nat) ∈ dimPairs (k + 2) := mem_dimPairs.2 ⟨by omega, by omega, by omega⟩
    rw [hD] at this
    simp at this
  | cons d ds =>
    rw [List.mapM_cons, hfr]
    rfl

/-- The scale of the examples. -/
theorem sqScale_isScale : IsScale sqScale := by
  intro col
  refine ⟨sum_sq_nonneg _ _, ?_⟩
  unfold sqScale
  rw [sum_sq_zero]
  constructor
  · intro h x hx y hy
    rw [h x hx, h y hy]
  · intro h x hx
    have hc := sum_const col x fun y hy => h y hy x hx
    have hl : (col.length : Rat) ≠ 0 := by
      have : 0 < col.length := List.length_pos_of_mem hx
      exact_mod_cast this.ne'
    rw [mean, hc, mul_comm, mul_div_assoc, div_self hl, mul_one]

/-- With three costs, an object may be below a frontier, even a Pareto point: here the object of costs 0 and 0 is the best one for the
two first costs, and the frontier goes from (0, 0) to (2, 10); the second object, which nothing dominates, has costs 2 and 1. -/
theorem C156_best_violated : paretoIndexes sqScale [[1, 5, 5], [2, 1, 6], [0, 0, 10]] = [true, true, true] ∧
    (paretoFrontiers sqScale 3 [[1, 5, 5], [2, 1, 6], [0, 0, 10]]).map (fun l => l[0]?) = .ok (some (((0, 0), (2, 10)) : Segment Rat)) ∧
    ¬ NotBelow (((0, 0), (2, 10)) : Segment Rat) 2 1 := by
  refine ⟨by decide +kernel, by decide +kernel, ?_⟩
  unfold NotBelow
  norm_num

/-- With three costs, a dominated object may be below a frontier although no object is the best one for its two costs: the last one,
of costs 10 and 1, is below the frontier from (0, -1) to (10, 9). -/
theorem C156_dominated_violated : ¬ BestForBoth ([[1, 0, 5], [0, 10, 5], [2, 1, 0], [10, 1, 5]] : List (List Rat)) 0 1 ∧
    (paretoFrontiers sqScale 4 [[1, 0, 5], [0, 10, 5], [2, 1, 0], [10, 1, 5]]).map (fun l => l[0]?) = .ok (some (((0, -1), (10, 9)) : Segment Rat)) ∧
    ¬ NotBelow (((0, -1), (10, 9)) : Segment Rat) 10 1 := by
  refine ⟨by unfold BestForBoth; decide +kernel, by decide +kernel, ?_⟩
  unfold NotBelow
  norm_num

/-- Cases of these theorems. -/
example : ∃ s t, paretoFrontiers sqScale 4 [[1, 6], [2, 3], [6, 1], [5, 5]] = .ok [s, t] ∧ Spans [[1, 6], [2, 3], [6, 1], [5, 5]] 0 s ∧
    Spans [[1, 6], [2, 3], [6, 1], [5, 5]] 1 t ∧
      ∀ r ∈ [[1, 6], [2, 3], [6, 1], [5, 5]], NotBelow s (cell r 0) (cell r 1) ∧ NotBelow t (cell r 1) (cell r 0) :=
  C156_two_partial sqScale_isScale (by decide +kernel) (by unfold Rect; decide +kernel) (by simp) (by unfold BestForBoth; decide +kernel)

example : paretoFrontiers sqScale 4 [[1, 6], [2, 3], [6, 1], [5, 5]] = .ok [((1, 7 / 2), (6, 1)), ((1, 8 / 3), (6, 1))] := by decide +kernel

example : ∃ fs, paretoFrontiers sqScale 3 [[1, 3, 2], [2, 1, 3], [3, 2, 1]] = .ok fs ∧ List.Forall₂ (fun (xy : Nat × Nat) (s : Segment Rat) =>
    Spans [[1, 3, 2], [2, 1, 3], [3, 2, 1]] xy.1 s ∧ ∀ r ∈ [[1, 3, 2], [2, 1, 3], [3, 2, 1]],
      (∀ a ∈ [[1, 3, 2], [2, 1, 3], [3, 2, 1]], ¬ Dominates a r) → NotBelow s (cell r xy.1) (cell r xy.2)) (dimPairs 3) fs := by
  apply C156_partial sqScale_isScale (rows := [[1, 3, 2], [2, 1, 3], [3, 2, 1]])
  · decide +kernel
  · unfold Rect; decide +kernel
  · simp
  · have : ∀ x < 3, ∀ y < 3, x ≠ y → ¬ BestForBoth ([[1, 3, 2], [2, 1, 3], [3, 2, 1]] : List (List Rat)) x y := by unfold BestForBoth; decide +kernel
    exact fun x y hx hy => this x hx y hy

example : paretoFrontiers sqScale 3 [[1, 1], [2, 3], [6, 1]] = .error .valueError :=
  C156_single_violated sqScale_isScale (rows := [[1, 1], [2, 3], [6, 1]]) (by decide +kernel) (m := 2) (by unfold Rect; decide +kernel) (by omega) (a := [1, 1]) (.head _) (by
    intro b hb
    simp only [List.mem_cons, List.not_mem_nil, or_false] at hb
    rintro (_ | _ | k) x y hx hy
    · simp at hx; rcases hb with rfl | rfl | rfl <;> simp at hy <;> subst hx hy <;> norm_num
    · simp at hx; rcases hb with rfl | rfl | rfl <;> simp at hy <;> subst hx hy <;> norm_num
    · simp at hx)

end DC.Data
