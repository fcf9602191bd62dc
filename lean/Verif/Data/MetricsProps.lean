import Mathlib.Tactic.Linarith
import Mathlib.Tactic.FieldSimp
import Mathlib.Tactic.Positivity
import Mathlib.Analysis.MeanInequalities
import Mathlib.Algebra.BigOperators.Fin
import Verif.Data.Metrics
import Verif.Data.ParetoProps
/-
Specification and properties of distances and moments (C49, C50, C89, C97).
-/
namespace DC.Data

set_option linter.unusedSectionVars false

variable {F : Type} [Field F] [LinearOrder F] [IsStrictOrderedRing F]

/-! ### Specification -/

/-- The metric axioms on the vectors of length `n`. -/
structure IsMetric (n : Nat) (dist : List F → List F → F) : Prop where
  nonneg : ∀ a b, a.length = n → b.length = n → 0 ≤ dist a b
  eq_iff : ∀ a b, a.length = n → b.length = n → (dist a b = 0 ↔ a = b)
  symm : ∀ a b, a.length = n → b.length = n → dist a b = dist b a
  triangle : ∀ a b c, a.length = n → b.length = n → c.length = n → dist a c ≤ dist a b + dist b c

/-- The norm axioms on the vectors of length `n`. -/
structure IsNorm (n : Nat) (norm : List F → F) : Prop where
  nonneg : ∀ v, v.length = n → 0 ≤ norm v
  eq_zero : ∀ v, v.length = n → (norm v = 0 ↔ v = List.replicate n 0)
  smul : ∀ (k : F) v, v.length = n → norm (v.map (k * ·)) = |k| * norm v
  add : ∀ v w, v.length = n → w.length = n → norm (List.zipWith (· + ·) v w) ≤ norm v + norm w

/-! ### Helpers -/

theorem length_diff (a b : List F) : (diffList a b).length = min a.length b.length := by simp [diffList]

theorem diff_zero_iff : ∀ (a b : List F), a.length = b.length → (diffList a b = List.replicate a.length 0 ↔ a = b)
  | [], [], _ => by simp [diffList]
  | x :: a, y :: b, h => by
    have ih := diff_zero_iff a b (by simpa using h)
    have : diffList (x :: a) (y :: b) = (x - y) :: diffList a b := rfl
    rw [this, List.length_cons, List.replicate_succ, List.cons.injEq, List.cons.injEq, ih, sub_eq_zero]

theorem diff_swap : ∀ (a b : List F), diffList b a = (diffList a b).map ((-1) * ·)
  | [], [] => rfl
  | [], _ :: _ => rfl
  | _ :: _, [] => rfl
  | x :: a, y :: b => by
    have : diffList (y :: b) (x :: a) = (y - x) :: diffList b a := rfl
    rw [this, diff_swap a b]
    show _ = ((x - y) :: diffList a b).map _
    rw [List.map_cons]
    congr 1
    ring

theorem diff_add : ∀ (a b c : List F), a.length = b.length → b.length = c.length →
    diffList a c = List.zipWith (· + ·) (diffList a b) (diffList b c)
  | [], [], [], _, _ => rfl
  | x :: a, y :: b, z :: c, h1, h2 => by
    have ih := diff_add a b c (by simpa using h1) (by simpa using h2)
    show (x - z) :: diffList a c = ((x - y) + (y - z)) :: List.zipWith (· + ·) (diffList a b) (diffList b c)
    rw [← ih]
    congr 1
    ring

/-- The distance of a norm is a metric. -/
theorem metric_of_norm {n : Nat} {norm : List F → F} (h : IsNorm n norm) : IsMetric n fun a b => norm (diffList a b) where
  nonneg a b ha hb := h.nonneg _ (by rw [length_diff, ha, hb, min_self])
  eq_iff a b ha hb := by
    rw [h.eq_zero _ (by rw [length_diff, ha, hb, min_self]), ← ha]
    exact diff_zero_iff a b (by rw [ha, hb])
  symm a b ha hb := by
    rw [diff_swap b a, h.smul _ _ (by rw [length_diff, ha, hb, min_self])]
    simp
  triangle a b c ha hb hc := by
    rw [diff_add a b c (by rw [ha, hb]) (by rw [hb, hc])]
    exact h.add _ _ (by rw [length_diff, ha, hb, min_self]) (by rw [length_diff, hb, hc, min_self])

/-! ### C49: Manhattan -/

theorem l1_nonneg (v : List F) : 0 ≤ l1Norm v := by
  induction v with
  | nil => simp [l1Norm]
  | cons x v ih =>
    have : l1Norm (x :: v) = |x| + l1Norm v := rfl
    rw [this]
    have := abs_nonneg x
    linarith

theorem l1_isNorm (n : Nat) : IsNorm n (l1Norm (F := F)) where
  nonneg v _ := l1_nonneg v
  eq_zero v hv := by
    subst hv
    induction v with
    | nil => simp [l1Norm]
    | cons x v ih =>
      have : l1Norm (x :: v) = |x| + l1Norm v := rfl
      rw [this, List.length_cons, List.replicate_succ, List.cons.injEq, ← ih]
      have h1 := abs_nonneg x
      have h2 := l1_nonneg v
      constructor
      · intro h
        exact ⟨abs_eq_zero.1 (by linarith), by linarith⟩
      · rintro ⟨rfl, h⟩
        simp [h]
  smul k v hv := by
    clear hv
    induction v with
    | nil => simp [l1Norm]
    | cons x v ih =>
      have h1 : l1Norm ((x :: v).map (k * ·)) = |k * x| + l1Norm (v.map (k * ·)) := rfl
      have h2 : l1Norm (x :: v) = |x| + l1Norm v := rfl
      rw [h1, h2, ih, abs_mul]
      ring
  add v w hv hw := by
    subst hv
    induction v generalizing w with
    | nil =>
      cases w with
      | nil => simp [l1Norm]
      | cons y w => simp at hw
    | cons x v ih =>
      cases w with
      | nil => simp at hw
      | cons y w =>
        have h1 : l1Norm (List.zipWith (· + ·) (x :: v) (y :: w)) = |x + y| + l1Norm (List.zipWith (· + ·) v w) := rfl
        have h2 : l1Norm (x :: v) = |x| + l1Norm v := rfl
        have h3 : l1Norm (y :: w) = |y| + l1Norm w := rfl
        rw [h1, h2, h3]
        have := ih w (by simpa using hw)
        have := abs_add_le x y
        linarith

/-- The Manhattan distance is a metric on the vectors of any given length. -/
theorem C49_manhattan (n : Nat) : IsMetric n (manhattan (F := F)) := metric_of_norm (l1_isNorm n)

/-- On vectors of different lengths, which raise no error, the distance can be null between different vectors. -/
theorem C49_length_violated : manhattan ([1] : List Rat) [1, 2] = 0 ∧ ([1] : List Rat) ≠ [1, 2] :=
  ⟨by decide +kernel, by decide +kernel⟩

/-! ### C49: infinite norm -/

theorem foldl_max_spec (v : List F) (a : F) : let m := v.foldl max a
    (m = a ∨ m ∈ v) ∧ a ≤ m ∧ ∀ x ∈ v, x ≤ m := by
  induction v generalizing a with
  | nil => simp
  | cons y v ih =>
    obtain ⟨h1, h2, h3⟩ := ih (max a y)
    refine ⟨?_, (le_max_left a y).trans h2, fun x hx => ?_⟩
    · rcases h1 with h1 | h1
      · rcases max_choice a y with h | h
        · left; rw [List.foldl_cons, h1, h]
        · right; rw [List.foldl_cons, h1, h]; exact .head _
      · exact .inr (.tail _ h1)
    · rcases List.mem_cons.1 hx with rfl | hx
      · exact (le_max_right a x).trans h2
      · exact h3 x hx

/-- The infinite norm is the greatest absolute value of the coordinates, a ValueError being raised if there are none. -/
theorem C49_inf (v : List F) : (v = [] → infNorm v = .error .valueError) ∧
    (v ≠ [] → ∃ m, infNorm v = .ok m ∧ (∃ x ∈ v, m = |x|) ∧ ∀ x ∈ v, |x| ≤ m) := by
  cases v with
  | nil => simp [infNorm]
  | cons x v =>
    refine ⟨by simp, fun _ => ⟨_, rfl, ?_⟩⟩
    obtain ⟨h1, h2, h3⟩ := foldl_max_spec (v.map fun y => |y|) |x|
    constructor
    · rcases h1 with h1 | h1
      · exact ⟨x, .head _, h1⟩
      · obtain ⟨y, hy, he⟩ := List.mem_map.1 h1
        exact ⟨y, .tail _ hy, he.symm⟩
    · intro y hy
      rcases List.mem_cons.1 hy with rfl | hy
      · exact h2
      · exact h3 _ (List.mem_map.2 ⟨y, hy, rfl⟩)

/-- The infinite norm is a norm on the vectors of any given positive length. -/
theorem C49_inf_norm (n : Nat) (hn : 0 < n) : IsNorm n fun v => ((infNorm v).toOption.getD (0 : F)) := by
  have key : ∀ v : List F, v.length = n → ∃ m, (infNorm v).toOption.getD (0 : F) = m ∧ (∃ x ∈ v, m = |x|) ∧ ∀ x ∈ v, |x| ≤ m := by
    intro v hv
    obtain ⟨m, h1, h2, h3⟩ := (C49_inf v).2 (by rintro rfl; simp at hv; omega)
    exact ⟨m, by rw [h1]; rfl, h2, h3⟩
  refine ⟨fun v hv => ?_, fun v hv => ?_, fun k v hv => ?_, fun v w hv hw => ?_⟩
  · obtain ⟨m, h1, ⟨x, -, h2⟩, -⟩ := key v hv
    rw [h1, h2]
    exact abs_nonneg x
  · obtain ⟨m, h1, ⟨x, hx, h2⟩, h3⟩ := key v hv
    rw [h1]
    constructor
    · rintro rfl
      rw [← hv]
      exact List.eq_replicate_of_mem fun y hy => abs_eq_zero.1 (le_antisymm (h3 y hy) (abs_nonneg y))
    · intro h
      rw [h] at hx
      rw [h2, List.eq_of_mem_replicate hx]
      exact abs_zero
  · obtain ⟨m, h1, ⟨x, hx, h2⟩, h3⟩ := key v hv
    obtain ⟨m', h1', ⟨y, hy, h2'⟩, h3'⟩ := key (v.map (k * ·)) (by simpa using hv)
    rw [h1, h1']
    apply le_antisymm
    · obtain ⟨z, hz, rfl⟩ := List.mem_map.1 hy
      rw [h2', abs_mul]
      exact mul_le_mul_of_nonneg_left (h3 z hz) (abs_nonneg k)
    · rw [h2, ← abs_mul]
      exact h3' _ (List.mem_map.2 ⟨x, hx, rfl⟩)
  · obtain ⟨m, h1, -, h3⟩ := key v hv
    obtain ⟨m', h1', -, h3'⟩ := key w hw
    obtain ⟨m'', h1'', ⟨z, hz, h2⟩, -⟩ := key (List.zipWith (· + ·) v w) (by simp [hv, hw])
    rw [h1, h1', h1'', h2]
    obtain ⟨i, hi, rfl⟩ := List.mem_iff_getElem.1 hz
    rw [List.getElem_zipWith]
    refine (abs_add_le _ _).trans (add_le_add (h3 _ (List.getElem_mem _)) (h3' _ (List.getElem_mem _)))

/-! ### C49: Euclid -/

theorem sumSq_cons (x : F) (v : List F) : sumSq (x :: v) = x * x + sumSq v := rfl

theorem sumSq_nonneg (v : List F) : 0 ≤ sumSq v := by
  induction v with
  | nil => simp [sumSq]
  | cons x v ih =>
    rw [sumSq_cons]
    have := mul_self_nonneg x
    linarith

theorem sumSq_zero (v : List F) : sumSq v = 0 ↔ v = List.replicate v.length 0 := by
  induction v with
  | nil => simp [sumSq]
  | cons x v ih =>
    rw [sumSq_cons, List.length_cons, List.replicate_succ, List.cons.injEq, ← ih]
    have h1 := mul_self_nonneg x
    have h2 := sumSq_nonneg v
    constructor
    · intro h
      exact ⟨mul_self_eq_zero.1 (by linarith), by linarith⟩
    · rintro ⟨rfl, h⟩
      simp [h]

/-- The scalar product, for Cauchy-Schwarz. -/
def dot (v w : List F) : F := (List.zipWith (· * ·) v w).sum

theorem sumSq_comb (s t : F) : ∀ (v w : List F), v.length = w.length →
    sumSq (List.zipWith (fun x y => t * x + s * y) v w) = t * t * sumSq v + 2 * t * s * dot v w + s * s * sumSq w
  | [], [], _ => by simp [sumSq, dot]
  | x :: v, y :: w, h => by
    have ih := sumSq_comb s t v w (by simpa using h)
    rw [List.zipWith_cons_cons, sumSq_cons, sumSq_cons, sumSq_cons, ih]
    have : dot (x :: v) (y :: w) = x * y + dot v w := rfl
    rw [this]
    ring

theorem cauchy_schwarz (v w : List F) (h : v.length = w.length) : dot v w * dot v w ≤ sumSq v * sumSq w := by
  have h1 := sumSq_nonneg (List.zipWith (fun x y => sumSq w * x + -dot v w * y) v w)
  rw [sumSq_comb _ _ v w h] at h1
  have hw := sumSq_nonneg w
  rcases hw.eq_or_lt with h0 | hpos
  · have hz : dot v w = 0 := by
      have := (sumSq_zero w).1 h0.symm
      rw [this]
      generalize w.length = n
      clear * -
      induction v generalizing n with
      | nil => simp [dot]
      | cons x v ih =>
        cases n with
        | zero => simp [dot]
        | succ n =>
          have : dot (x :: v) (List.replicate (n + 1) 0) = x * 0 + dot v (List.replicate n 0) := rfl
          rw [this, ih]
          ring
    rw [hz, ← h0]
    simp
  · have h2 : 0 ≤ sumSq w * (sumSq v * sumSq w - dot v w * dot v w) := by nlinarith
    have := nonneg_of_mul_nonneg_right h2 hpos
    linarith

theorem l2_isNorm (n : Nat) : IsNorm n l2Norm where
  nonneg v _ := Real.sqrt_nonneg _
  eq_zero v hv := by
    unfold l2Norm
    rw [Real.sqrt_eq_zero (sumSq_nonneg v), sumSq_zero, hv]
  smul k v hv := by
    clear hv
    unfold l2Norm
    have : sumSq (v.map (k * ·)) = k * k * sumSq v := by
      induction v with
      | nil => simp [sumSq]
      | cons x v ih =>
        rw [List.map_cons, sumSq_cons, sumSq_cons, ih]
        ring
    rw [this, Real.sqrt_mul (mul_self_nonneg k), Real.sqrt_mul_self_eq_abs]
  add v w hv hw := by
    have hl : v.length = w.length := hv.trans hw.symm
    unfold l2Norm
    rw [Real.sqrt_le_left (by positivity)]
    have h1 := sumSq_comb 1 1 v w hl
    simp only [one_mul, mul_one] at h1
    rw [h1]
    have h2 := cauchy_schwarz v w hl
    have h3 : dot v w ≤ Real.sqrt (sumSq v) * Real.sqrt (sumSq w) := by
      rw [← Real.sqrt_mul (sumSq_nonneg v)]
      apply Real.le_sqrt_of_sq_le
      rw [sq]
      exact h2
    have h4 := Real.sq_sqrt (sumSq_nonneg v)
    have h5 := Real.sq_sqrt (sumSq_nonneg w)
    nlinarith

/-- The Euclidean distance is a metric on the vectors of any given length. -/
theorem C49_euclidian (n : Nat) : IsMetric n euclidian := metric_of_norm (l2_isNorm n)

/-! ### C97: Minkowski -/

theorem sum_fin_map (v : List ℝ) (f : ℝ → ℝ) : (v.map f).sum = ∑ i : Fin v.length, f v[i] := by
  exact (Fin.sum_univ_fun_getElem v f).symm

theorem lp_nonneg {p : ℝ} (v : List ℝ) : 0 ≤ lpNorm p v := by
  unfold lpNorm
  split
  · positivity
  · apply Real.rpow_nonneg
    apply List.sum_nonneg
    intro x hx
    obtain ⟨y, -, rfl⟩ := List.mem_map.1 hx
    exact Real.rpow_nonneg (abs_nonneg y) p

theorem lp_isNorm {p : ℝ} (hp : 1 ≤ p) (n : Nat) : IsNorm n (lpNorm p) := by
  have hp0 : p ≠ 0 := by linarith
  have hpp : 0 < p := by linarith
  have hsum : ∀ v : List ℝ, 0 ≤ (v.map fun x => |x| ^ p).sum := by
    intro v
    apply List.sum_nonneg
    intro x hx
    obtain ⟨y, -, rfl⟩ := List.mem_map.1 hx
    exact Real.rpow_nonneg (abs_nonneg y) p
  refine ⟨fun v _ => lp_nonneg v, fun v hv => ?_, fun k v hv => ?_, fun v w hv hw => ?_⟩
  · unfold lpNorm
    rw [if_neg hp0, Real.rpow_eq_zero (hsum v) (by positivity)]
    subst hv
    induction v with
    | nil => simp
    | cons x v ih =>
      rw [List.map_cons, List.sum_cons, List.length_cons, List.replicate_succ, List.cons.injEq, ← ih]
      have h1 := Real.rpow_nonneg (abs_nonneg x) p
      have h2 := hsum v
      constructor
      · intro h
        have hx : |x| ^ p = 0 := by linarith
        exact ⟨abs_eq_zero.1 ((Real.rpow_eq_zero (abs_nonneg x) hp0).1 hx), by linarith⟩
      · rintro ⟨rfl, h⟩
        rw [h, abs_zero, Real.zero_rpow hp0]
        ring
  · clear hv
    unfold lpNorm
    rw [if_neg hp0, if_neg hp0]
    have : ((v.map (k * ·)).map fun x => |x| ^ p).sum = |k| ^ p * (v.map fun x => |x| ^ p).sum := by
      induction v with
      | nil => simp
      | cons x v ih =>
        simp only [List.map_cons, List.sum_cons]
        rw [ih, abs_mul, Real.mul_rpow (abs_nonneg k) (abs_nonneg x)]
        ring
    rw [this, Real.mul_rpow (Real.rpow_nonneg (abs_nonneg k) p) (hsum v), ← Real.rpow_mul (abs_nonneg k), mul_one_div_cancel hp0, Real.rpow_one]
  · unfold lpNorm
    rw [if_neg hp0, if_neg hp0, if_neg hp0]
    have hf : ∀ u : List ℝ, u.length = n → (u.map fun x => |x| ^ p).sum = ∑ i : Fin n, |u.getD i 0| ^ p := by
      intro u hu
      subst hu
      rw [sum_fin_map]
      refine Finset.sum_congr rfl fun i _ => ?_
      simp
    rw [hf _ hv, hf _ hw, hf _ (by simp [hv, hw])]
    have := Real.Lp_add_le (Finset.univ : Finset (Fin n)) (fun i => v.getD i 0) (fun i => w.getD i 0) hp
    have hz : ∀ i : Fin n, (List.zipWith (· + ·) v w).getD i 0 = v.getD i 0 + w.getD i 0 := by
      intro i
      have h1 : (i : Nat) < v.length := by rw [hv]; exact i.2
      have h2 : (i : Nat) < w.length := by rw [hw]; exact i.2
      simp [List.getElem?_zipWith, List.getElem?_eq_getElem h1, List.getElem?_eq_getElem h2]
    simp only [hz]
    exact this

/-- The Minkowski distance of an order greater than 1 is a metric on the vectors of any given length. -/
theorem C97_minkowski {p : ℝ} (hp : 1 ≤ p) (n : Nat) : IsMetric n (fun a b => (minkowski p a b).toOption.getD 0) ∧
    ∀ a b : List ℝ, a.length = n → b.length = n → ∃ r, minkowski p a b = .ok r := by
  have h := metric_of_norm (lp_isNorm hp n)
  have he : ∀ a b : List ℝ, a.length = n → b.length = n → minkowski p a b = .ok (lpNorm p (diffList a b)) := by
    intro a b ha hb
    unfold minkowski arrayDiff
    rw [if_pos (ha.trans hb.symm)]
    rfl
  have he' : ∀ a b : List ℝ, a.length = n → b.length = n → (minkowski p a b).toOption.getD 0 = lpNorm p (diffList a b) := by
    intro a b ha hb
    rw [he a b ha hb]
    rfl
  refine ⟨⟨?_, ?_, ?_, ?_⟩, fun a b ha hb => ⟨_, he a b ha hb⟩⟩
  · intro a b ha hb
    rw [he' a b ha hb]
    exact h.nonneg a b ha hb
  · intro a b ha hb
    rw [he' a b ha hb]
    exact h.eq_iff a b ha hb
  · intro a b ha hb
    rw [he' a b ha hb, he' b a hb ha]
    exact h.symm a b ha hb
  · intro a b c ha hb hc
    rw [he' a b ha hb, he' b c hb hc, he' a c ha hc]
    exact h.triangle a b c ha hb hc

/-- The orders 1 and 2 give the Manhattan and the Euclidean distances. -/
theorem C97_orders (a b : List ℝ) (h : a.length = b.length) :
    minkowski 1 a b = .ok (manhattan a b) ∧ minkowski 2 a b = .ok (euclidian a b) := by
  unfold minkowski arrayDiff
  rw [if_pos h]
  constructor
  · simp [Except.map, lpNorm, manhattan, l1Norm, diffList]
  · simp only [Except.map, lpNorm, euclidian, l2Norm, diffList, sumSq, Except.ok.injEq]
    rw [if_neg (by norm_num), Real.sqrt_eq_rpow]
    congr 2
    refine List.map_congr_left fun x _ => ?_
    rw [show (2 : ℝ) = ((2 : Nat) : ℝ) by norm_num, Real.rpow_natCast, sq_abs, sq]

/-- The order 0 counts the coordinates in which the vectors differ. -/
theorem C97_order_zero (a b : List ℝ) (h : a.length = b.length) :
    minkowski 0 a b = .ok (((a.zip b).filter fun p => decide (p.1 ≠ p.2)).length : ℝ) := by
  unfold minkowski arrayDiff
  rw [if_pos h]
  simp only [Except.map, lpNorm, if_pos, Except.ok.injEq, Nat.cast_inj]
  clear h
  induction a generalizing b with
  | nil => simp
  | cons x a ih =>
    cases b with
    | nil => simp
    | cons y b =>
      have := ih b
      simp only [List.zipWith_cons_cons, List.zip_cons_cons, List.filter_cons]
      by_cases hxy : x = y
      · simpa [hxy, diffList] using this
      · simpa [hxy, sub_eq_zero, diffList] using this

/-- Vectors of different lengths raise a ValueError, unless one has a single coordinate: it is compared to each coordinate of the
other, and the distance can be null between vectors of different lengths. -/
theorem C97_length_violated (p : ℝ) (hp : 1 ≤ p) : minkowski p [1] [1, 1] = .ok 0 ∧ minkowski p [1, 2] [1, 2, 3] = .error .valueError := by
  have hp0 : p ≠ 0 := by linarith
  constructor
  · simp only [minkowski, arrayDiff, Except.map, lpNorm, if_neg hp0]
    simp [Real.zero_rpow hp0, Real.zero_rpow (inv_ne_zero hp0)]
  · simp [minkowski, arrayDiff, Except.map]

/-- For the order 1/2, the triangle inequality fails. -/
theorem C97_triangle_violated : ∃ ab bc ac : ℝ, minkowski (1 / 2) [0, 0] [1, 0] = .ok ab ∧ minkowski (1 / 2) [1, 0] [1, 1] = .ok bc ∧
    minkowski (1 / 2) [0, 0] [1, 1] = .ok ac ∧ ab + bc < ac := by
  refine ⟨_, _, _, rfl, rfl, rfl, ?_⟩
  have h0 : (1 / 2 : ℝ) ≠ 0 := by norm_num
  simp only [lpNorm, if_neg h0, List.zipWith_cons_cons, List.zipWith_nil_left, List.map_cons, List.map_nil, List.sum_cons, List.sum_nil]
  norm_num [Real.zero_rpow]

/-! ### C50: moments -/

theorem covariance_ok {x y : List F} (h : x.length = y.length) (hne : x ≠ []) :
    covariance x y = .ok ((List.zipWith (fun a b => (a - mean x) * (b - mean y)) x y).sum / x.length) := by
  have hx : x.length ≠ 0 := fun h => hne (List.length_eq_zero_iff.1 h)
  have hy : y.length ≠ 0 := h ▸ hx
  unfold covariance pyMean
  rw [if_neg (by simpa using h), if_neg hx, if_neg hy]
  rfl

/-- The mean of the values, and a ZeroDivisionError if there are none. -/
theorem C50_mean (v : List F) : (v = [] → pyMean v = .error .zeroDivision) ∧
    (v ≠ [] → ∃ m, pyMean v = .ok m ∧ m * v.length = v.sum ∧ (∀ c, (∀ x ∈ v, c ≤ x) → c ≤ m) ∧ ∀ c, (∀ x ∈ v, x ≤ c) → m ≤ c) := by
  constructor
  · rintro rfl; rfl
  · intro hne
    have hl : v.length ≠ 0 := fun h => hne (List.length_eq_zero_iff.1 h)
    have hpos : (0 : F) < v.length := by exact_mod_cast Nat.pos_of_ne_zero hl
    refine ⟨mean v, by rw [pyMean, if_neg hl], ?_, fun c hc => ?_, fun c hc => ?_⟩
    · unfold mean
      exact div_mul_cancel₀ _ hpos.ne'
    · unfold mean
      rw [le_div_iff₀ hpos]
      have := List.card_nsmul_le_sum v c hc
      rw [nsmul_eq_mul] at this
      linarith
    · unfold mean
      rw [div_le_iff₀ hpos]
      have := List.sum_le_card_nsmul v c hc
      rw [nsmul_eq_mul] at this
      linarith

/-- Covariance is symmetric, errors included. -/
theorem C50_symm (x y : List F) : covariance x y = covariance y x := by
  by_cases h : x.length = y.length
  · cases x with
    | nil =>
      cases y with
      | nil => rfl
      | cons b y => simp at h
    | cons a x =>
      have hy : y ≠ [] := by rintro rfl; simp at h
      rw [covariance_ok h (by simp), covariance_ok h.symm hy, h]
      congr 3
      rw [List.zipWith_comm]
      congr 1
      funext a b
      exact mul_comm _ _
  · unfold covariance
    rw [if_pos h, if_pos (Ne.symm h)]

/-- The covariance of a vector with itself is its variance, which is not negative, and null for constant vectors only. -/
theorem C50_variance {x : List F} (hne : x ≠ []) : covariance x x = .ok (variance x) ∧ 0 ≤ variance x ∧
    (variance x = 0 ↔ ∃ c, ∀ a ∈ x, a = c) := by
  have hl : x.length ≠ 0 := fun h => hne (List.length_eq_zero_iff.1 h)
  have hpos : (0 : F) < x.length := by exact_mod_cast Nat.pos_of_ne_zero hl
  refine ⟨?_, ?_, ?_⟩
  · rw [covariance_ok rfl hne]
    unfold variance mean
    rw [List.length_map, List.zipWith_self]
  · unfold variance
    rw [mean, List.length_map]
    exact div_nonneg (sum_sq_nonneg _ _) hpos.le
  · unfold variance
    rw [mean, List.length_map, div_eq_zero_iff, or_iff_left hpos.ne', sum_sq_zero]
    constructor
    · intro h; exact ⟨_, h⟩
    · rintro ⟨c, hc⟩ a ha
      rw [hc a ha]
      unfold mean
      rw [sum_const x c hc, mul_div_cancel_left₀ _ hpos.ne']

theorem mean_add {x : List F} (hne : x ≠ []) (c : F) : mean (x.map (· + c)) = mean x + c := by
  have hl : x.length ≠ 0 := fun h => hne (List.length_eq_zero_iff.1 h)
  have hpos : (x.length : F) ≠ 0 := by exact_mod_cast hl
  have hs : (x.map (· + c)).sum = x.sum + x.length * c := by
    clear hne hl hpos
    induction x with
    | nil => simp
    | cons a x ih =>
      rw [List.map_cons, List.sum_cons, List.sum_cons, ih, List.length_cons]
      push_cast
      ring
  unfold mean
  rw [hs, List.length_map, add_div, mul_div_cancel_left₀ _ hpos]

/-- Covariance is not changed by translations. -/
theorem C50_translation (x y : List F) (c d : F) : covariance (x.map (· + c)) (y.map (· + d)) = covariance x y := by
  by_cases h : x.length = y.length
  · by_cases hx : x = []
    · subst hx
      cases y with
      | nil => rfl
      | cons b y => simp at h
    · have hy : y ≠ [] := by rintro rfl; simp at h; exact hx h
      rw [covariance_ok (by simpa using h) (by simpa using hx), covariance_ok h hx, mean_add hx, mean_add hy, List.length_map, List.zipWith_map]
      congr 4
      funext a b
      ring
  · unfold covariance
    rw [if_pos h, if_pos (by simpa using h)]

/-- Vectors of different lengths raise a ValueError, empty vectors a ZeroDivisionError. -/
theorem C50_raises (x y : List F) : (x.length ≠ y.length → covariance x y = .error .valueError) ∧
    covariance ([] : List F) [] = .error .zeroDivision := by
  refine ⟨fun h => ?_, rfl⟩
  unfold covariance
  rw [if_pos h]

/-- The square of a covariance is bounded by the product of the variances. -/
theorem C50_bound {x y : List F} (h : x.length = y.length) (hne : x ≠ []) :
    ∃ c, covariance x y = .ok c ∧ c * c ≤ variance x * variance y := by
  have hl : x.length ≠ 0 := fun h => hne (List.length_eq_zero_iff.1 h)
  have hpos : (0 : F) < x.length := by exact_mod_cast Nat.pos_of_ne_zero hl
  refine ⟨_, covariance_ok h hne, ?_⟩
  have h1 := cauchy_schwarz (x.map fun a => a - mean x) (y.map fun b => b - mean y) (by simpa using h)
  have e1 : dot (x.map fun a => a - mean x) (y.map fun b => b - mean y) = (List.zipWith (fun a b => (a - mean x) * (b - mean y)) x y).sum := by
    unfold dot
    rw [List.zipWith_map]
  have e2 : ∀ v : List F, sumSq (v.map fun a => a - mean v) = variance v * v.length ∨ v = [] := by
    intro v
    by_cases hv : v = []
    · exact .inr hv
    · left
      have hlv : (v.length : F) ≠ 0 := by exact_mod_cast fun h => hv (List.length_eq_zero_iff.1 h)
      show _ = mean (v.map fun x => (x - mean v) * (x - mean v)) * v.length
      unfold sumSq
      rw [List.map_map]
      generalize mean v = m
      unfold mean
      rw [List.length_map, div_mul_cancel₀ _ hlv]
      rfl
  have hy : y ≠ [] := by rintro rfl; simp at h; exact hne h
  rw [e1, (e2 x).resolve_right hne, (e2 y).resolve_right hy, ← h] at h1
  rw [div_mul_div_comm, div_le_iff₀ (by positivity)]
  linarith

example : covariance ([1, 2, 6] : List Rat) [0, 1, 5] = .ok (14 / 3) ∧ variance ([1, 2, 6] : List Rat) = 14 / 3 :=
  ⟨by decide +kernel, by decide +kernel⟩

/-! ### C89: covariance matrix -/

/-- The entries of the covariance matrix are the covariances of the rows times n / (n - 1).  Missing for the full property:
equality (`C89_violated`), and a matrix for a single row (`C89_single_violated`). -/
theorem C89_partial {rows : List (List F)} {n : Nat} (hn : 2 ≤ n) (hrows : ∀ r ∈ rows, r.length = n) (h2 : rows.length ≠ 1) :
    ∃ m, covarianceMatrix rows = .matrix m ∧ m.length = rows.length ∧ ∀ (i j : Nat) (x y : List F), rows[i]? = some x → rows[j]? = some y →
      ∃ row e c, m[i]? = some row ∧ row[j]? = some e ∧ covariance x y = .ok c ∧ e = c * (n / (n - 1)) := by
  have hm : covarianceMatrix rows = .matrix (rows.map fun x => rows.map fun y => npCov x y) := by
    match rows, h2 with
    | [], _ => rfl
    | _ :: _ :: _, _ => rfl
  have hn0 : (n : F) ≠ 0 := by
    have : n ≠ 0 := by omega
    exact_mod_cast this
  refine ⟨_, hm, by simp, fun i j x y hx hy => ?_⟩
  have hxn := hrows x (List.mem_of_getElem? hx)
  have hyn := hrows y (List.mem_of_getElem? hy)
  refine ⟨_, _, _, by rw [List.getElem?_map, hx]; rfl, by rw [List.getElem?_map, hy]; rfl,
    covariance_ok (hxn.trans hyn.symm) (by rintro rfl; simp at hxn; omega), ?_⟩
  unfold npCov
  rw [hxn]
  rw [div_mul_div_comm, mul_comm _ (n : F), mul_div_mul_left _ _ hn0]

example : ∃ m : List (List Rat), covarianceMatrix [[1, 2, 6], [0, 1, 5]] = .matrix m ∧ m.length = 2 := by
  obtain ⟨m, h1, h2, -⟩ := C89_partial (F := Rat) (rows := [[1, 2, 6], [0, 1, 5]]) (n := 3) (by decide) (by simp) (by decide)
  exact ⟨m, h1, h2⟩

/-- The entries of the covariance matrix are not the covariances. -/
theorem C89_violated : ∃ m : List (List Rat), covarianceMatrix [[0, 2], [0, 4]] = .matrix m ∧ m = [[2, 4], [4, 8]] ∧
    covariance ([0, 2] : List Rat) [0, 4] = .ok 2 :=
  ⟨_, rfl, by decide +kernel, by decide +kernel⟩

/-- For a single row, a number is returned instead of a matrix. -/
theorem C89_single_violated (r : List F) : covarianceMatrix [r] = .scalar (npCov r r) := rfl

end DC.Data
