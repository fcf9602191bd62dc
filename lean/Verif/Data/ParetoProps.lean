import Mathlib.Data.List.Perm.Basic
import Mathlib.Analysis.Real.Sqrt
import Mathlib.Algebra.Order.BigOperators.Group.List
import Mathlib.Tactic.Linarith
import Mathlib.Tactic.NormNum
import Verif.Data.Pareto
import Verif.Filters.Props
/-
Specification and properties of Pareto points and sheets (C43, C44).
-/
namespace DC.Data

set_option linter.unusedSectionVars false

variable {F : Type} [Field F] [LinearOrder F] [IsStrictOrderedRing F]

/-! ### Specification -/

/-- A cost table: all the points have the same number `m` of costs. -/
def Rect (m : Nat) (costs : List (List F)) : Prop := ∀ r ∈ costs, r.length = m

/-- No cost of `a` is above the one of `b`. -/
def NoWorse (a b : List F) : Prop := ∀ (k : Nat) (x y : F), a[k]? = some x → b[k]? = some y → x ≤ y

/-- `a` is at least as good as `b` in every cost and better in one. -/
def Dominates (a b : List F) : Prop := NoWorse a b ∧ ∃ (k : Nat) (x y : F), a[k]? = some x ∧ b[k]? = some y ∧ x < y

/-- What is needed of the standard deviation: it is not negative, and zero for constant columns only. -/
def IsScale (sd : List F → F) : Prop := ∀ col, 0 ≤ sd col ∧ (sd col = 0 ↔ ∀ x ∈ col, ∀ y ∈ col, x = y)

/-! ### Scaling does not change comparisons -/

theorem column_mem {costs : List (List F)} {r : List F} (hr : r ∈ costs) {k : Nat} {x : F} (hx : r[k]? = some x) :
    x ∈ column costs k := List.mem_filterMap.2 ⟨r, hr, hx⟩

theorem lt_scaled {sd : List F → F} (hs : IsScale sd) {costs : List (List F)} {k : Nat} {x y : F} (hx : x ∈ column costs k)
    (hy : y ∈ column costs k) :
    ltNan (if sd (column costs k) = 0 then none else some ((x - mean (column costs k)) / sd (column costs k)))
      (if sd (column costs k) = 0 then none else some ((y - mean (column costs k)) / sd (column costs k))) = true ↔ x < y := by
  obtain ⟨h0, hc⟩ := hs (column costs k)
  by_cases hz : sd (column costs k) = 0
  · rw [if_pos hz, if_pos hz]
    have := hc.1 hz x hx y hy
    simp [ltNan, this]
  · rw [if_neg hz, if_neg hz]
    have hpos : 0 < sd (column costs k) := lt_of_le_of_ne h0 (Ne.symm hz)
    simp only [ltNan, decide_eq_true_eq]
    rw [div_lt_div_iff_of_pos_right hpos]
    constructor <;> intro h <;> linarith

theorem scaled_get {sd : List F → F} {costs : List (List F)} {i : Nat} {r : List F} (h : costs[i]? = some r) :
    (scaled sd costs)[i]? = some (r.zipIdx.map fun xk =>
      if sd (column costs xk.2) = 0 then none else some ((xk.1 - mean (column costs xk.2)) / sd (column costs xk.2))) := by
  simp [scaled, h]

theorem anyLt_scaled {sd : List F → F} (hs : IsScale sd) {costs : List (List F)} {i j : Nat} {a b : List F}
    (ha : costs[i]? = some a) (hb : costs[j]? = some b) {ra rb : List (Option F)} (hra : (scaled sd costs)[i]? = some ra)
    (hrb : (scaled sd costs)[j]? = some rb) : anyLt rb ra = true ↔ ∃ (k : Nat) (x y : F), b[k]? = some x ∧ a[k]? = some y ∧ x < y := by
  rw [scaled_get ha] at hra
  rw [scaled_get hb] at hrb
  simp only [Option.some.injEq] at hra hrb
  subst hra
  subst hrb
  have hma := List.mem_of_getElem? ha
  have hmb := List.mem_of_getElem? hb
  unfold anyLt
  rw [List.any_eq_true]
  constructor
  · rintro ⟨⟨p, q⟩, hpq, hlt⟩
    obtain ⟨k, hk⟩ := List.mem_iff_getElem?.1 hpq
    rw [List.getElem?_zip_eq_some] at hk
    obtain ⟨h1, h2⟩ := hk
    rw [List.getElem?_map, Option.map_eq_some_iff] at h1 h2
    obtain ⟨⟨x, kx⟩, hx, rfl⟩ := h1
    obtain ⟨⟨y, ky⟩, hy, rfl⟩ := h2
    rw [List.getElem?_zipIdx, Option.map_eq_some_iff] at hx hy
    obtain ⟨x', hx, e1⟩ := hx
    obtain ⟨y', hy, e2⟩ := hy
    simp only [Prod.mk.injEq, Nat.zero_add] at e1 e2
    obtain ⟨rfl, rfl⟩ := e1
    obtain ⟨rfl, rfl⟩ := e2
    exact ⟨k, x', y', hx, hy, (lt_scaled hs (column_mem hmb hx) (column_mem hma hy)).1 hlt⟩
  · rintro ⟨k, x, y, hx, hy, hlt⟩
    refine ⟨(if sd (column costs k) = 0 then none else some ((x - mean (column costs k)) / sd (column costs k)),
      if sd (column costs k) = 0 then none else some ((y - mean (column costs k)) / sd (column costs k))),
      List.mem_iff_getElem?.2 ⟨k, ?_⟩, (lt_scaled hs (column_mem hmb hx) (column_mem hma hy)).2 hlt⟩
    rw [List.getElem?_zip_eq_some]
    constructor
    · rw [List.getElem?_map, List.getElem?_zipIdx, hx, Option.map_some, Option.map_some, Nat.zero_add]
    · rw [List.getElem?_map, List.getElem?_zipIdx, hy, Option.map_some, Option.map_some, Nat.zero_add]

theorem not_lt_noWorse {a b : List F} : (¬ ∃ (k : Nat) (x y : F), b[k]? = some x ∧ a[k]? = some y ∧ x < y) ↔ NoWorse a b := by
  constructor
  · intro h k x y hx hy
    by_contra hlt
    exact h ⟨k, y, x, hy, hx, not_le.1 hlt⟩
  · rintro h ⟨k, x, y, hx, hy, hlt⟩
    exact absurd (h k y x hy hx) (not_le.2 hlt)

theorem NoWorse.refl (a : List F) : NoWorse a a := by
  intro k x y hx hy
  rw [hx] at hy
  simp only [Option.some.injEq] at hy
  exact hy.le

theorem NoWorse.trans {a b c : List F} (hl : a.length = b.length) (h1 : NoWorse a b) (h2 : NoWorse b c) : NoWorse a c := by
  intro k x y hx hy
  obtain ⟨z, hz⟩ : ∃ z, b[k]? = some z := by
    have : k < b.length := by rw [← hl]; exact (List.getElem?_eq_some_iff.1 hx).1
    exact ⟨b[k], List.getElem?_eq_getElem this⟩
  exact le_trans (h1 k x z hx hz) (h2 k z y hz hy)

theorem NoWorse.antisymm {a b : List F} (hl : a.length = b.length) (h1 : NoWorse a b) (h2 : NoWorse b a) : a = b := by
  apply List.ext_getElem? 
  intro k
  cases hx : a[k]? with
  | none =>
    rw [List.getElem?_eq_none_iff] at hx
    rw [eq_comm, List.getElem?_eq_none_iff]
    omega
  | some x =>
    have : k < b.length := by rw [← hl]; exact (List.getElem?_eq_some_iff.1 hx).1
    rw [List.getElem?_eq_getElem this]
    congr 1
    exact le_antisymm (h1 k x _ hx (List.getElem?_eq_getElem this)) (h2 k _ x (List.getElem?_eq_getElem this) hx)

theorem dominates_iff {a b : List F} (hl : a.length = b.length) : Dominates a b ↔ NoWorse a b ∧ a ≠ b := by
  constructor
  · rintro ⟨h, k, x, y, hx, hy, hlt⟩
    refine ⟨h, fun e => ?_⟩
    subst e
    rw [hx] at hy
    simp only [Option.some.injEq] at hy
    exact absurd hy hlt.ne
  · rintro ⟨h, hne⟩
    refine ⟨h, ?_⟩
    by_contra hno
    exact hne (h.antisymm hl (not_lt_noWorse.1 hno))

/-! ### The loop -/

section loop
variable {rows : List (List (Option F))}

/-- Point `j` is kept. -/
def Kept (mask : List Bool) (j : Nat) : Prop := mask[j]? = some true

instance (mask : List Bool) (j : Nat) : Decidable (Kept mask j) := inferInstanceAs (Decidable (_ = _))

theorem paretoStep_length (mask : List Bool) (i : Nat) (hl : mask.length = rows.length) :
    (paretoStep rows mask i).length = rows.length := by
  unfold paretoStep
  split
  · simp [hl]
  · exact hl

theorem paretoStep_kept {mask : List Bool} {i : Nat} (hl : mask.length = rows.length) {c : List (Option F)}
    (hc : rows[i]? = some c) (j : Nat) : Kept (paretoStep rows mask i) j ↔
      if Kept mask i then j = i ∨ (Kept mask j ∧ ∃ r, rows[j]? = some r ∧ anyLt r c = true) else Kept mask j := by
  by_cases hm : Kept mask i
  · rw [if_pos hm]
    unfold Kept at hm ⊢
    unfold paretoStep
    rw [hm, hc]
    dsimp only
    by_cases hj : j = i
    · subst hj
      have : j < rows.length := (List.getElem?_eq_some_iff.1 hc).1
      simp [this, hl]
    · rw [List.getElem?_set_ne (Ne.symm hj), List.getElem?_zipWith]
      cases hr : rows[j]? with
      | none => simp [hj]
      | some r =>
        cases hm' : mask[j]? with
        | none => simp [hj]
        | some b => simp [hj]
  · rw [if_neg hm]
    unfold Kept at hm ⊢
    unfold paretoStep
    split
    · rename_i h1 h2
      exact absurd h1 hm
    · exact Iff.rfl

/-- After `n` iterations. -/
structure Inv (costs : List (List F)) (n : Nat) (mask : List Bool) : Prop where
  len : mask.length = costs.length
  covered : ∀ j b, costs[j]? = some b → ¬ Kept mask j → ∃ i a, costs[i]? = some a ∧ Kept mask i ∧ NoWorse a b
  apart : ∀ i j a b, i < n → costs[i]? = some a → costs[j]? = some b → Kept mask i → Kept mask j → j ≠ i → ¬ NoWorse a b
  first : ∀ i j a, i < j → costs[i]? = some a → costs[j]? = some a → Kept mask j → Kept mask i

theorem Inv.step {sd : List F → F} (hs : IsScale sd) {m : Nat} {costs : List (List F)} (hr : Rect m costs) {n : Nat} {mask : List Bool}
    (hn : n < costs.length) (h : Inv costs n mask) : Inv costs (n + 1) (paretoStep (scaled sd costs) mask n) := by
  have hsl : (scaled sd costs).length = costs.length := by simp [scaled]
  have hl : mask.length = (scaled sd costs).length := by rw [hsl, h.len]
  obtain ⟨cn, hcn⟩ : ∃ c, costs[n]? = some c := ⟨costs[n], List.getElem?_eq_getElem hn⟩
  have hkept : ∀ j b, costs[j]? = some b → (Kept (paretoStep (scaled sd costs) mask n) j ↔
      if Kept mask n then j = n ∨ (Kept mask j ∧ ¬ NoWorse cn b) else Kept mask j) := by
    intro j b hb
    rw [paretoStep_kept hl (scaled_get hcn) j]
    have : (∃ r, (scaled sd costs)[j]? = some r ∧ anyLt r (cn.zipIdx.map fun xk =>
      if sd (column costs xk.2) = 0 then none else some ((xk.1 - mean (column costs xk.2)) / sd (column costs xk.2))) = true) ↔
        ¬ NoWorse cn b := by
      rw [← not_lt_noWorse, not_not]
      constructor
      · rintro ⟨r, h1, h2⟩
        exact (anyLt_scaled hs hcn hb (scaled_get hcn) h1).1 h2
      · intro h2
        exact ⟨_, scaled_get hb, (anyLt_scaled hs hcn hb (scaled_get hcn) (scaled_get hb)).2 h2⟩
    rw [this]
  have hlen : ∀ (i j : Nat) (a b : List F), costs[i]? = some a → costs[j]? = some b → a.length = b.length := fun i j a b ha hb =>
    (hr a (List.mem_of_getElem? ha)).trans (hr b (List.mem_of_getElem? hb)).symm
  by_cases hm : Kept mask n
  · simp only [if_pos hm] at hkept
    refine ⟨by rw [paretoStep_length _ _ hl, hsl], ?_, ?_, ?_⟩
    · intro j b hb hnk
      by_cases hj : Kept mask j
      · have : NoWorse cn b := by
          by_contra hno
          exact hnk ((hkept j b hb).2 (.inr ⟨hj, hno⟩))
        exact ⟨n, cn, hcn, (hkept n cn hcn).2 (.inl rfl), this⟩
      · obtain ⟨i, a, ha, hi, hab⟩ := h.covered j b hb hj
        by_cases hna : NoWorse cn a
        · exact ⟨n, cn, hcn, (hkept n cn hcn).2 (.inl rfl), hna.trans (hlen _ _ _ _ hcn ha) hab⟩
        · exact ⟨i, a, ha, (hkept i a ha).2 (.inr ⟨hi, hna⟩), hab⟩
    · intro i j a b hi ha hb hki hkj hne
      rw [hkept i a ha] at hki
      rw [hkept j b hb] at hkj
      rcases hki with rfl | ⟨hki, hkn⟩
      · rcases hkj with rfl | ⟨-, hkn⟩
        · exact absurd rfl hne
        · rw [ha] at hcn
          simp only [Option.some.injEq] at hcn
          subst hcn
          exact hkn
      · rcases hkj with rfl | ⟨hkj, -⟩
        · have hin : i < j := by omega
          exact h.apart i j a b hin ha hb hki hm hne
        · rcases Nat.lt_succ_iff_lt_or_eq.1 hi with hi | rfl
          · exact h.apart i j a b hi ha hb hki hkj hne
          · rw [ha] at hcn
            simp only [Option.some.injEq] at hcn
            subst hcn
            exact absurd (NoWorse.refl a) hkn
    · intro i j a hij ha hb hkj
      rw [hkept j a hb] at hkj
      rw [hkept i a ha]
      rcases hkj with rfl | ⟨hkj, hkn⟩
      · have hki := h.first i j a hij ha hb hm
        exact absurd (NoWorse.refl a) (h.apart i j a a hij ha hb hki hm (by omega))
      · exact .inr ⟨h.first i j a hij ha hb hkj, hkn⟩
  · simp only [if_neg hm] at hkept
    have hk : ∀ j, Kept (paretoStep (scaled sd costs) mask n) j ↔ Kept mask j := by
      intro j
      rw [paretoStep_kept hl (scaled_get hcn) j, if_neg hm]
    refine ⟨by rw [paretoStep_length _ _ hl, hsl], ?_, ?_, ?_⟩
    · intro j b hb hnk
      rw [hk] at hnk
      obtain ⟨i, a, ha, hi, hab⟩ := h.covered j b hb hnk
      exact ⟨i, a, ha, (hk i).2 hi, hab⟩
    · intro i j a b hi ha hb hki hkj hne
      rw [hk] at hki hkj
      rcases Nat.lt_succ_iff_lt_or_eq.1 hi with hi | rfl
      · exact h.apart i j a b hi ha hb hki hkj hne
      · exact absurd hki hm
    · intro i j a hij ha hb hkj
      rw [hk] at hkj ⊢
      exact h.first i j a hij ha hb hkj

theorem pareto_inv {sd : List F → F} (hs : IsScale sd) {m : Nat} {costs : List (List F)} (hr : Rect m costs) :
    Inv costs costs.length (paretoIndexes sd costs) := by
  have : ∀ n, n ≤ costs.length →
      Inv costs n ((List.range n).foldl (paretoStep (scaled sd costs)) (List.replicate costs.length true)) := by
    intro n
    induction n with
    | zero =>
      intro _
      have hk : ∀ j b, costs[j]? = some b → Kept (List.replicate costs.length true) j := by
        intro j b hb
        simp [Kept, (List.getElem?_eq_some_iff.1 hb).1]
      exact ⟨by simp, fun j b hb hn => absurd (hk j b hb) hn, by simp, fun i j a _ ha _ _ => hk i a ha⟩
    | succ n ih =>
      intro hn
      rw [List.range_succ, List.foldl_append]
      exact (ih (by omega)).step hs hr (by omega)
  exact this _ (Nat.le_refl _)

end loop

/-! ### C43 -/

/-- There is one boolean per point. -/
theorem pareto_length {sd : List F → F} (hs : IsScale sd) {m : Nat} {costs : List (List F)} (hr : Rect m costs) :
    (paretoIndexes sd costs).length = costs.length := (pareto_inv hs hr).len

/-- A point is kept exactly if no point dominates it and no point before it has the same costs. -/
theorem C43_exact {sd : List F → F} (hs : IsScale sd) {m : Nat} {costs : List (List F)} (hr : Rect m costs) {j : Nat} {b : List F}
    (hb : costs[j]? = some b) : (paretoIndexes sd costs)[j]? = some true ↔
      (∀ a ∈ costs, ¬ Dominates a b) ∧ ∀ i < j, costs[i]? ≠ some b := by
  have h := pareto_inv hs hr
  have hlen : ∀ (i : Nat) (a : List F), costs[i]? = some a → a.length = b.length := fun i a ha =>
    (hr a (List.mem_of_getElem? ha)).trans (hr b (List.mem_of_getElem? hb)).symm
  constructor
  · intro hk
    constructor
    · intro a hma hdom
      obtain ⟨i, ha⟩ := List.mem_iff_getElem?.1 hma
      have hij : i ≠ j := by
        rintro rfl
        rw [ha] at hb
        simp only [Option.some.injEq] at hb
        exact ((dominates_iff (hlen i a ha)).1 hdom).2 hb
      by_cases hki : Kept (paretoIndexes sd costs) i
      · exact h.apart i j a b (List.getElem?_eq_some_iff.1 ha).1 ha hb hki hk (Ne.symm hij) hdom.1
      · obtain ⟨i', a', ha', hki', hle⟩ := h.covered i a ha hki
        have hl' : a'.length = a.length := (hlen i' a' ha').trans (hlen i a ha).symm
        by_cases hi' : j = i'
        · subst hi'
          rw [hb] at ha'
          simp only [Option.some.injEq] at ha'
          subst ha'
          exact ((dominates_iff (hlen i a ha)).1 hdom).2 (hdom.1.antisymm (hlen i a ha) hle)
        · exact h.apart i' j a' b (List.getElem?_eq_some_iff.1 ha').1 ha' hb hki' hk hi' (hle.trans hl' hdom.1)
    · intro i hij ha
      exact h.apart i j b b (List.getElem?_eq_some_iff.1 ha).1 ha hb (h.first i j b hij ha hb hk) hk (by omega) (NoWorse.refl b)
  · rintro ⟨hdom, hfirst⟩
    by_contra hk
    obtain ⟨i, a, ha, hki, hle⟩ := h.covered j b hb hk
    have hab : a = b := by
      by_contra hne
      exact hdom a (List.mem_of_getElem? ha) ((dominates_iff (hlen i a ha)).2 ⟨hle, hne⟩)
    subst hab
    rcases Nat.lt_trichotomy i j with hij | hij | hij
    · exact hfirst i hij ha
    · exact hk (hij ▸ hki)
    · exact hk (h.first j i a hij hb ha hki)

/-- No kept point is dominated, and every discarded point is dominated by, or equal to, a kept one. -/
theorem C43_pareto {sd : List F → F} (hs : IsScale sd) {m : Nat} {costs : List (List F)} (hr : Rect m costs) :
    (∀ (i j : Nat) (a b : List F), costs[i]? = some a → costs[j]? = some b → (paretoIndexes sd costs)[j]? = some true → ¬ Dominates a b) ∧
    (∀ (j : Nat) (b : List F), costs[j]? = some b → (paretoIndexes sd costs)[j]? = some false →
      ∃ (i : Nat) (a : List F), costs[i]? = some a ∧ (paretoIndexes sd costs)[i]? = some true ∧ (Dominates a b ∨ a = b)) := by
  refine ⟨fun i j a b ha hb hk => ((C43_exact hs hr hb).1 hk).1 a (List.mem_of_getElem? ha), fun j b hb hk => ?_⟩
  obtain ⟨i, a, ha, hki, hle⟩ := (pareto_inv hs hr).covered j b hb (by rw [Kept, hk]; simp)
  refine ⟨i, a, ha, hki, ?_⟩
  by_cases hab : a = b
  · exact .inr hab
  · exact .inl ((dominates_iff ((hr a (List.mem_of_getElem? ha)).trans (hr b (List.mem_of_getElem? hb)).symm)).2 ⟨hle, hab⟩)

/-! ### The standard deviation is a scale -/

/-- `npy.std` of a column of real numbers: dataset.py 813. -/
noncomputable def std (v : List ℝ) : ℝ := Real.sqrt (mean (v.map fun x => (x - mean v) * (x - mean v)))

theorem sum_sq_nonneg (v : List F) (c : F) : 0 ≤ (v.map fun x => (x - c) * (x - c)).sum := by
  induction v with
  | nil => simp
  | cons x v ih =>
    rw [List.map_cons, List.sum_cons]
    have := mul_self_nonneg (x - c)
    linarith

theorem sum_sq_zero (v : List F) (c : F) : (v.map fun x => (x - c) * (x - c)).sum = 0 ↔ ∀ x ∈ v, x = c := by
  induction v with
  | nil => simp
  | cons x v ih =>
    rw [List.map_cons, List.sum_cons]
    have h1 := mul_self_nonneg (x - c)
    have h2 := sum_sq_nonneg v c
    constructor
    · intro h
      have hx : (x - c) * (x - c) = 0 := by linarith
      have hv : (v.map fun x => (x - c) * (x - c)).sum = 0 := by linarith
      intro y hy
      rcases List.mem_cons.1 hy with rfl | hy
      · exact sub_eq_zero.1 (mul_self_eq_zero.1 hx)
      · exact ih.1 hv y hy
    · intro h
      rw [ih.2 fun y hy => h y (.tail _ hy), h x (.head _)]
      simp

theorem sum_const (v : List F) (c : F) (h : ∀ x ∈ v, x = c) : v.sum = v.length * c := by
  induction v with
  | nil => simp
  | cons x v ih =>
    rw [List.sum_cons, ih fun y hy => h y (.tail _ hy), h x (.head _), List.length_cons]
    push_cast
    ring

theorem std_isScale : IsScale std := by
  intro col
  refine ⟨Real.sqrt_nonneg _, ?_⟩
  unfold std
  have hnn : 0 ≤ mean (col.map fun x => (x - mean col) * (x - mean col)) := by
    unfold mean
    exact div_nonneg (sum_sq_nonneg _ _) (Nat.cast_nonneg _)
  rw [Real.sqrt_eq_zero hnn]
  cases col with
  | nil => simp [mean]
  | cons c col =>
    have hpos : ((c :: col).length : ℝ) ≠ 0 := by simp; positivity
    have hz : mean ((c :: col).map fun x => (x - mean (c :: col)) * (x - mean (c :: col))) = 0 ↔
        ∀ x ∈ c :: col, x = mean (c :: col) := by
      rw [← sum_sq_zero (c :: col) (mean (c :: col))]
      show _ / _ = 0 ↔ _
      rw [List.length_map, div_eq_zero_iff]
      exact or_iff_left hpos
    rw [hz]
    constructor
    · intro h x hx y hy
      rw [h x hx, h y hy]
    · intro h x hx
      have hsum := sum_const (c :: col) x fun y hy => h y hy x hx
      unfold mean
      rw [hsum, mul_div_cancel_left₀ _ hpos]

/-- The points are kept as said whatever the real costs. -/
theorem C43_real {m : Nat} {costs : List (List ℝ)} (hr : Rect m costs) {j : Nat} {b : List ℝ} (hb : costs[j]? = some b) :
    (paretoIndexes std costs)[j]? = some true ↔ (∀ a ∈ costs, ¬ Dominates a b) ∧ ∀ i < j, costs[i]? ≠ some b :=
  C43_exact std_isScale hr hb

/-- A rational scale, for the examples: the sum of the squared differences. -/
def sqScale (col : List Rat) : Rat := (col.map fun x => (x - mean col) * (x - mean col)).sum

example : paretoIndexes sqScale [[1, 5, 7], [2, 3, 7], [3, 4, 7], [1, 5, 7], [6, 1, 7]] = [true, true, false, false, true] := by
  decide +kernel

/-! ### C44: sheets -/

section sheets
variable {ω : Type}

theorem compress_map {α β : Type} (f : α → β) : ∀ (l : List α) (m : List Bool), compress (l.map f) m = (compress l m).map f
  | [], m => by simp [compress]
  | x :: l, [] => by simp [compress]
  | x :: l, b :: m => by
    rw [List.map_cons, compress, compress, compress_map f l m]
    split <;> simp

theorem compress_perm {α : Type} : ∀ (l : List α) (m : List Bool), m.length = l.length →
    (compress l m ++ compress l (m.map not)).Perm l
  | [], [], _ => by simp [compress]
  | x :: l, b :: m, h => by
    have ih := compress_perm l m (by simpa using h)
    rw [List.map_cons, compress, compress]
    cases b
    · simpa using List.perm_middle.trans (ih.cons x)
    · simpa using ih.cons x

theorem mem_compress {α : Type} {x : α} : ∀ {l : List α} {m : List Bool}, x ∈ compress l m ↔ ∃ i : Nat, l[i]? = some x ∧ m[i]? = some true
  | [], m => by simp [compress]
  | y :: l, [] => by simp [compress]
  | y :: l, b :: m => by
    rw [compress]
    have ih := mem_compress (x := x) (l := l) (m := m)
    constructor
    · intro h
      split at h
      · rename_i hb
        rcases List.mem_cons.1 h with rfl | h
        · exact ⟨0, by simp, by simpa using hb⟩
        · obtain ⟨i, h1, h2⟩ := ih.1 h
          exact ⟨i + 1, by simpa using h1, by simpa using h2⟩
      · obtain ⟨i, h1, h2⟩ := ih.1 h
        exact ⟨i + 1, by simpa using h1, by simpa using h2⟩
    · rintro ⟨i, h1, h2⟩
      cases i with
      | zero =>
        simp only [List.getElem?_cons_zero, Option.some.injEq] at h1 h2
        subst h1
        simp [h2]
      | succ i =>
        have := ih.2 ⟨i, by simpa using h1, by simpa using h2⟩
        split
        · exact .tail _ this
        · exact this

/-- The sheets returned by `pareto_sheets` and the rest, the costs being those of the objects. -/
def sheetsOf (sd : List F → F) (cost : ω → List F) (points : List ω) (n : Nat) : List (List ω) × List ω :=
  paretoLoop sd n (points.map cost) points

theorem sheetsOf_succ (sd : List F → F) (cost : ω → List F) (points : List ω) (n : Nat) :
    sheetsOf sd cost points (n + 1) =
      (compress points (paretoIndexes sd (points.map cost)) ::
        (sheetsOf sd cost (compress points ((paretoIndexes sd (points.map cost)).map not)) n).1,
       (sheetsOf sd cost (compress points ((paretoIndexes sd (points.map cost)).map not)) n).2) := by
  unfold sheetsOf
  rw [paretoLoop, compress_map]

theorem rect_map {m : Nat} {cost : ω → List F} (hr : ∀ x, (cost x).length = m) (points : List ω) : Rect m (points.map cost) := by
  intro r h
  obtain ⟨x, -, rfl⟩ := List.mem_map.1 h
  exact hr x

/-- As many sheets as asked are returned; the sheets and the rest contain each object exactly once, in the order of the
dataset within each of them. -/
theorem C44_partition {sd : List F → F} (hs : IsScale sd) {m : Nat} {cost : ω → List F} (hr : ∀ x, (cost x).length = m) (n : Nat) (points : List ω) :
    (sheetsOf sd cost points n).1.length = n ∧
    ((sheetsOf sd cost points n).1.flatten ++ (sheetsOf sd cost points n).2).Perm points ∧
    (∀ sheet ∈ (sheetsOf sd cost points n).1, sheet.Sublist points) ∧ (sheetsOf sd cost points n).2.Sublist points := by
  induction n generalizing points with
  | zero => simp [sheetsOf, paretoLoop]
  | succ n ih =>
    rw [sheetsOf_succ]
    obtain ⟨h1, h2, h3, h4⟩ := ih (compress points ((paretoIndexes sd (points.map cost)).map not))
    refine ⟨by simp [h1], ?_, ?_, h4.trans (compress_sublist _ _)⟩
    · rw [List.flatten_cons, List.append_assoc]
      refine (h2.append_left _).trans (compress_perm _ _ ?_)
      rw [pareto_length hs (rect_map hr points), List.length_map]
    · intro sheet hsh
      rcases List.mem_cons.1 hsh with rfl | hsh
      · exact compress_sublist _ _
      · exact (h3 sheet hsh).trans (compress_sublist _ _)

/-- Ranks: no object of a sheet is dominated by an object of the same sheet, of a later one or of the rest; every object of a
later sheet or of the rest is dominated by an object of the sheet, or has the same costs as one. -/
theorem C44_rank {sd : List F → F} (hs : IsScale sd) {m : Nat} {cost : ω → List F} (hr : ∀ x, (cost x).length = m) (n : Nat) (points : List ω)
    (before after : List (List ω)) (sheet : List ω) (hsplit : (sheetsOf sd cost points n).1 = before ++ sheet :: after) :
    (∀ x ∈ sheet, ∀ y ∈ sheet ++ (after.flatten ++ (sheetsOf sd cost points n).2), ¬ Dominates (cost y) (cost x)) ∧
    (∀ y ∈ after.flatten ++ (sheetsOf sd cost points n).2, ∃ x ∈ sheet, Dominates (cost x) (cost y) ∨ cost x = cost y) := by
  induction n generalizing points before with
  | zero => simp [sheetsOf, paretoLoop] at hsplit
  | succ n ih =>
    rw [sheetsOf_succ] at hsplit ⊢
    cases before with
    | cons b before =>
      simp only [List.cons_append, List.cons.injEq] at hsplit
      exact ih _ before hsplit.2
    | nil =>
      simp only [List.nil_append, List.cons.injEq] at hsplit
      obtain ⟨rfl, rfl⟩ := hsplit
      have hrect := rect_map hr points
      have hlen : (paretoIndexes sd (points.map cost)).length = points.length := by rw [pareto_length hs hrect, List.length_map]
      have hperm := (C44_partition hs hr n (compress points ((paretoIndexes sd (points.map cost)).map not))).2.1
      have hget : ∀ (i : Nat) (x : ω), points[i]? = some x → (points.map cost)[i]? = some (cost x) := by
        intro i x hx
        rw [List.getElem?_map, hx]
        rfl
      constructor
      · intro x hx y hy
        obtain ⟨i, hi, hk⟩ := mem_compress.1 hx
        have hyp : y ∈ points := by
          rcases List.mem_append.1 hy with hy | hy
          · exact (compress_sublist _ _).subset hy
          · exact (compress_sublist _ _).subset (hperm.mem_iff.1 hy)
        exact ((C43_exact hs hrect (hget i x hi)).1 hk).1 _ (List.mem_map.2 ⟨y, hyp, rfl⟩)
      · intro y hy
        obtain ⟨i, hi, hk⟩ := mem_compress.1 (hperm.mem_iff.1 hy)
        rw [List.getElem?_map, Option.map_eq_some_iff] at hk
        obtain ⟨b, hb, hbt⟩ := hk
        have hbf : b = false := by cases b <;> simp_all
        subst hbf
        obtain ⟨j, a, ha, hkj, hdom⟩ := (C43_pareto hs hrect).2 i _ (hget i y hi) hb
        rw [List.getElem?_map, Option.map_eq_some_iff] at ha
        obtain ⟨x, hx, rfl⟩ := ha
        exact ⟨x, mem_compress.2 ⟨j, hx, hkj⟩, hdom⟩

example : sheetsOf sqScale (fun p : Rat × Rat => [p.1, p.2]) [(1, 5), (2, 6), (5, 1), (3, 7), (2, 6)] 2 =
    ([[(1, 5), (5, 1)], [(2, 6)]], [(3, 7), (2, 6)]) := by decide +kernel

end sheets

/-! ### Checking costs -/

/-- The costs are returned with one row per object whenever they are given either by rows or by columns; a ValueError is raised
otherwise. -/
theorem C43_costs {α : Type} {n m : Nat} {costs : List (List α)} (hr : ∀ r ∈ costs, r.length = m) (hne : costs ≠ []) :
    (costs.length = n → checkCosts n costs = .ok costs) ∧
    (costs.length ≠ n → m = n → ∃ t, checkCosts n costs = .ok t ∧ t.length = n ∧ ∀ (i j : Nat), j < n → (t[j]?.bind (·[i]?)) = (costs[i]?.bind (·[j]?))) ∧
    (costs.length ≠ n → m ≠ n → checkCosts n costs = .error .valueError) := by
  obtain ⟨r, rest, rfl⟩ := List.exists_cons_of_ne_nil hne
  have hrm := hr r (.head _)
  refine ⟨fun h => ?_, fun h hm => ?_, fun h hm => ?_⟩
  · unfold checkCosts
    rw [if_neg (by simpa using h)]
  · unfold checkCosts
    rw [if_pos h]
    dsimp only
    rw [if_pos (hrm.trans hm)]
    refine ⟨_, rfl, by simp [transpose, hrm, hm], fun i j hj => ?_⟩
    have hcol : ∀ l : List (List α), (∀ r ∈ l, r.length = m) → (column l j)[i]? = (l[i]?.bind (·[j]?)) := by
      intro l
      induction l generalizing i with
      | nil => simp [column]
      | cons r l ih =>
        intro hl
        have hjl : j < r.length := by rw [hl r (.head _), hm]; exact hj
        unfold column
        rw [List.filterMap_cons, List.getElem?_eq_getElem hjl]
        dsimp only
        cases i with
        | zero => simp
        | succ i => simpa [column] using ih i fun q hq => hl q (.tail _ hq)
    unfold transpose
    dsimp only
    rw [List.getElem?_map, List.getElem?_range (by omega), Option.map_some, Option.bind_some]
    exact hcol _ hr
  · unfold checkCosts
    rw [if_pos h]
    dsimp only
    rw [if_neg (by omega)]

example : checkCosts 2 [[(1 : Nat), 5, 7], [2, 6, 8]] = .ok [[1, 5, 7], [2, 6, 8]] :=
  (C43_costs (m := 3) (by simp) (by simp)).1 rfl
example : ∃ t, checkCosts 3 [[(1 : Nat), 5, 7], [2, 6, 8]] = .ok t ∧ t.length = 3 := by
  obtain ⟨t, h1, h2, -⟩ := (C43_costs (n := 3) (m := 3) (costs := [[(1 : Nat), 5, 7], [2, 6, 8]]) (by simp) (by simp)).2.1 (by simp) rfl
  exact ⟨t, h1, h2⟩

end DC.Data
