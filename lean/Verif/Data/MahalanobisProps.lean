import Verif.Data.Mahalanobis
import Verif.Data.Metrics
import Mathlib.Algebra.BigOperators.Fin
import Mathlib.Algebra.BigOperators.Field
import Mathlib.Algebra.QuadraticDiscriminant
import Mathlib.Tactic.Linarith
import Mathlib.Tactic.FinCases
import Mathlib.Tactic.NormNum
/- Property C167: the Mahalanobis distance. -/
namespace DC.Data

open Matrix

variable {n : Nat} {pinv : Matrix (Fin n) (Fin n) ℝ → Matrix (Fin n) (Fin n) ℝ}

/-! ### Specification -/

/-- A covariance matrix: symmetric, and no combination of attributes has a negative variance. -/
def Covariance (C : Matrix (Fin n) (Fin n) ℝ) : Prop := Cᵀ = C ∧ ∀ x, 0 ≤ x ⬝ᵥ C *ᵥ x

/-- The same data with other units: each attribute is multiplied by a factor. -/
def rescale (u : Fin n → ℝ) (a : Fin n → ℝ) : Fin n → ℝ := fun i => u i * a i

/-- The covariance of the data with other units. -/
def rescaleCov (u : Fin n → ℝ) (C : Matrix (Fin n) (Fin n) ℝ) : Matrix (Fin n) (Fin n) ℝ := fun i j => u i * C i j * u j

/-! ### Proofs -/

theorem pinv_unique {C X Y : Matrix (Fin n) (Fin n) ℝ} (hX : IsPinv C X) (hY : IsPinv C Y) : X = Y := by
  have h1 : X = X * C * Y := by
    calc X = X * (C * X) := by rw [← Matrix.mul_assoc, hX.two]
      _ = X * (C * X)ᵀ := by rw [hX.three]
      _ = X * ((C * Y) * (C * X))ᵀ := by rw [← Matrix.mul_assoc (C * Y), hY.one]
      _ = X * ((C * X)ᵀ * (C * Y)ᵀ) := by rw [Matrix.transpose_mul (C * Y)]
      _ = X * C * X * C * Y := by rw [hX.three, hY.three]; simp only [Matrix.mul_assoc]
      _ = X * C * Y := by rw [hX.two]
  have h2 : Y = X * C * Y := by
    calc Y = (Y * C) * Y := by rw [hY.two]
      _ = (Y * C)ᵀ * Y := by rw [hY.four]
      _ = ((Y * C) * (X * C))ᵀ * Y := by rw [Matrix.mul_assoc Y C, ← Matrix.mul_assoc C X C, hX.one]
      _ = ((X * C)ᵀ * (Y * C)ᵀ) * Y := by rw [Matrix.transpose_mul (Y * C)]
      _ = X * C * (Y * C * Y) := by rw [hX.four, hY.four]; simp only [Matrix.mul_assoc]
      _ = X * C * Y := by rw [hY.two]
  rw [h1]; exact h2.symm

theorem pinv_symm {C P : Matrix (Fin n) (Fin n) ℝ} (hC : Cᵀ = C) (hP : IsPinv C P) : Pᵀ = P := by
  refine pinv_unique ⟨?_, ?_, ?_, ?_⟩ hP
  · have := congrArg Matrix.transpose hP.one
    rwa [transpose_mul, transpose_mul, hC, ← Matrix.mul_assoc] at this
  · have := congrArg Matrix.transpose hP.two
    rwa [transpose_mul, transpose_mul, hC, ← Matrix.mul_assoc] at this
  · have := hP.four
    rw [transpose_mul, hC] at this
    rw [this, ← this, transpose_mul, hC, transpose_transpose, this]
  · have := hP.three
    rw [transpose_mul, hC] at this
    rw [this, ← this, transpose_mul, hC, transpose_transpose, this]

/-- The inverse of a covariance gives no negative square. -/
theorem pinv_nonneg {C P : Matrix (Fin n) (Fin n) ℝ} (hC : Covariance C) (hP : IsPinv C P) (x : Fin n → ℝ) : 0 ≤ x ⬝ᵥ P *ᵥ x := by
  have h := hC.2 (P *ᵥ x)
  have h1 : (P *ᵥ x) ⬝ᵥ C *ᵥ (P *ᵥ x) = x ⬝ᵥ P *ᵥ x := by
    rw [← hP.two]
    conv_rhs => rw [← Matrix.mulVec_mulVec, ← Matrix.mulVec_mulVec, Matrix.dotProduct_mulVec, ← Matrix.mulVec_transpose, pinv_symm hC.1 hP]
    rw [hP.two]
  rw [← h1]; exact h

/-- The product the inverse gives is symmetric. -/
theorem form_symm {P : Matrix (Fin n) (Fin n) ℝ} (hP : Pᵀ = P) (x y : Fin n → ℝ) : x ⬝ᵥ P *ᵥ y = y ⬝ᵥ P *ᵥ x := by
  rw [Matrix.dotProduct_mulVec, ← Matrix.mulVec_transpose, hP, dotProduct_comm]

theorem form_add {P : Matrix (Fin n) (Fin n) ℝ} (hP : Pᵀ = P) (x y : Fin n → ℝ) :
    (x + y) ⬝ᵥ P *ᵥ (x + y) = x ⬝ᵥ P *ᵥ x + 2 * (x ⬝ᵥ P *ᵥ y) + y ⬝ᵥ P *ᵥ y := by
  rw [Matrix.mulVec_add, add_dotProduct, dotProduct_add, dotProduct_add, form_symm hP y x]
  ring

/-- The inequality of Cauchy and Schwarz. -/
theorem form_cauchy {P : Matrix (Fin n) (Fin n) ℝ} (hP : Pᵀ = P) (h0 : ∀ x, 0 ≤ x ⬝ᵥ P *ᵥ x) (x y : Fin n → ℝ) :
    (x ⬝ᵥ P *ᵥ y) ^ 2 ≤ (x ⬝ᵥ P *ᵥ x) * (y ⬝ᵥ P *ᵥ y) := by
  have h : ∀ t : ℝ, 0 ≤ (y ⬝ᵥ P *ᵥ y) * (t * t) + (2 * (x ⬝ᵥ P *ᵥ y)) * t + x ⬝ᵥ P *ᵥ x := by
    intro t
    have := h0 (x + t • y)
    rw [form_add hP, Matrix.mulVec_smul, smul_dotProduct, dotProduct_smul, dotProduct_smul] at this
    simp only [smul_eq_mul] at this
    linarith
  have := discrim_le_zero h
  unfold discrim at this
  linarith

theorem mahalanobis_eq (a b : Fin n → ℝ) (C : Matrix (Fin n) (Fin n) ℝ) :
    mahalanobisDistance pinv a b C = Real.sqrt ((a - b) ⬝ᵥ pinv C *ᵥ (a - b)) := by
  simp only [mahalanobisDistance, scipyMahalanobis]
  rw [Matrix.dotProduct_mulVec]

/-- The distance is never negative, is the same both ways, is 0 from a point to itself, and no detour is shorter. -/
theorem C167_metric {C : Matrix (Fin n) (Fin n) ℝ} (hC : Covariance C) (hp : IsPinv C (pinv C)) (a b c : Fin n → ℝ) :
    0 ≤ mahalanobisDistance pinv a b C ∧ mahalanobisDistance pinv a a C = 0 ∧
    mahalanobisDistance pinv a b C = mahalanobisDistance pinv b a C ∧
    mahalanobisDistance pinv a c C ≤ mahalanobisDistance pinv a b C + mahalanobisDistance pinv b c C := by
  have hs := pinv_symm hC.1 hp
  have h0 := pinv_nonneg hC hp
  simp only [mahalanobis_eq]
  refine ⟨Real.sqrt_nonneg _, by simp, ?_, ?_⟩
  · rw [← neg_sub a b, Matrix.mulVec_neg, neg_dotProduct_neg]
  · generalize hx : a - b = x
    generalize hy : b - c = y
    have hxy : a - c = x + y := by rw [← hx, ← hy]; abel
    rw [hxy, form_add hs]
    refine Real.sqrt_le_left (add_nonneg (Real.sqrt_nonneg _) (Real.sqrt_nonneg _)) |>.2 ?_ |> fun h => h
    have h1 := Real.sq_sqrt (h0 x)
    have h2 := Real.sq_sqrt (h0 y)
    have h3 : x ⬝ᵥ pinv C *ᵥ y ≤ Real.sqrt (x ⬝ᵥ pinv C *ᵥ x) * Real.sqrt (y ⬝ᵥ pinv C *ᵥ y) := by
      rw [← Real.sqrt_mul (h0 x)]
      exact Real.le_sqrt_of_sq_le (form_cauchy hs h0 x y)
    nlinarith

theorem pinv_inverse {C P : Matrix (Fin n) (Fin n) ℝ} (hd : IsUnit C.det) (hP : IsPinv C P) : P * C = 1 ∧ C * P = 1 := by
  have h1 : P * C = 1 := by
    have := congrArg (C⁻¹ * ·) hP.one
    simp only [← Matrix.mul_assoc, Matrix.nonsing_inv_mul C hd, Matrix.one_mul] at this
    exact this
  exact ⟨h1, mul_eq_one_comm.1 h1⟩

/-- Points at distance 0 are the same, when no attribute is a combination of the others. -/
theorem C167_separates {C : Matrix (Fin n) (Fin n) ℝ} (hC : Covariance C) (hp : IsPinv C (pinv C)) (hd : C.det ≠ 0) {a b : Fin n → ℝ}
    (h : mahalanobisDistance pinv a b C = 0) : a = b := by
  have hs := pinv_symm hC.1 hp
  have h0 := pinv_nonneg hC hp
  rw [mahalanobis_eq, Real.sqrt_eq_zero (h0 _)] at h
  have hz : pinv C *ᵥ (a - b) = 0 := by
    have h1 := form_cauchy hs h0 (pinv C *ᵥ (a - b)) (a - b)
    rw [h, mul_zero] at h1
    have h2 : (pinv C *ᵥ (a - b)) ⬝ᵥ pinv C *ᵥ (a - b) = 0 := pow_eq_zero_iff (two_ne_zero) |>.1 (le_antisymm h1 (sq_nonneg _))
    exact dotProduct_self_eq_zero.1 h2
  have h3 : C *ᵥ (pinv C *ᵥ (a - b)) = a - b := by
    rw [Matrix.mulVec_mulVec, (pinv_inverse hd.isUnit hp).2, Matrix.one_mulVec]
  rw [hz, Matrix.mulVec_zero] at h3
  exact sub_eq_zero.1 h3.symm

theorem rescaleCov_eq (u : Fin n → ℝ) (C : Matrix (Fin n) (Fin n) ℝ) : rescaleCov u C = diagonal u * C * diagonal u := by
  ext i j
  simp [rescaleCov, Matrix.mul_diagonal, Matrix.diagonal_mul]

/-- The distances do not depend on the units of the attributes, when no attribute is a combination of the others.
Missing: attributes which are combinations of the others (`C167_units_violated`). -/
theorem C167_units_partial {C : Matrix (Fin n) (Fin n) ℝ} {u : Fin n → ℝ} (hu : ∀ i, u i ≠ 0) (hd : C.det ≠ 0) (hp : IsPinv C (pinv C))
    (hp' : IsPinv (rescaleCov u C) (pinv (rescaleCov u C))) (a b : Fin n → ℝ) :
    mahalanobisDistance pinv (rescale u a) (rescale u b) (rescaleCov u C) = mahalanobisDistance pinv a b C := by
  have hdu : (diagonal u).det ≠ 0 := by
    rw [Matrix.det_diagonal]
    exact Finset.prod_ne_zero_iff.2 fun i _ => hu i
  have hd' : (rescaleCov u C).det ≠ 0 := by
    rw [rescaleCov_eq, Matrix.det_mul, Matrix.det_mul]
    exact mul_ne_zero (mul_ne_zero hdu hd) hdu
  have h1 := (pinv_inverse hd.isUnit hp).1
  have h2 := (pinv_inverse hd'.isUnit hp').2
  have hre : ∀ x, rescale u x = diagonal u *ᵥ x := fun x => by ext i; simp [rescale, Matrix.mulVec_diagonal]
  have hsub : rescale u a - rescale u b = diagonal u *ᵥ (a - b) := by rw [hre, hre, Matrix.mulVec_sub]
  -- the inverse of the rescaled covariance, between the factors, is the inverse of the covariance
  have hq : diagonal u * pinv (rescaleCov u C) * diagonal u = pinv C := by
    rw [rescaleCov_eq] at h2 ⊢
    generalize pinv (diagonal u * C * diagonal u) = Q at h2 ⊢
    have hcancel : C * (diagonal u * Q * diagonal u) = 1 := by
      have h3 := congrArg (fun X => (diagonal u)⁻¹ * X * diagonal u) h2
      simp only [Matrix.mul_one, Matrix.nonsing_inv_mul _ hdu.isUnit] at h3
      rw [← h3]
      simp only [← Matrix.mul_assoc, Matrix.nonsing_inv_mul _ hdu.isUnit, Matrix.one_mul]
    calc diagonal u * Q * diagonal u = pinv C * C * (diagonal u * Q * diagonal u) := by rw [h1, Matrix.one_mul]
      _ = pinv C := by rw [Matrix.mul_assoc, hcancel, Matrix.mul_one]
  rw [mahalanobis_eq, mahalanobis_eq, hsub, ← hq, ← Matrix.mulVec_mulVec, ← Matrix.mulVec_mulVec]
  congr 1
  rw [Matrix.dotProduct_mulVec (a - b), ← Matrix.mulVec_transpose, Matrix.diagonal_transpose]

/-- The rows of data: the values of each of the `n` attributes for the `k` samples. -/
def mahaRows {k : Nat} (d : Fin n → Fin k → ℝ) : List (List ℝ) := List.ofFn fun i => List.ofFn (d i)

/-- The covariance matrix of data is a covariance, to which what precedes applies. -/
theorem C167_data {k : Nat} (hk : 2 ≤ k) (d : Fin n → Fin k → ℝ) : Covariance (fun i j => npCov (List.ofFn (d i)) (List.ofFn (d j))) ∧
    (n ≠ 1 → covarianceMatrix (mahaRows d) = .matrix (List.ofFn fun i => List.ofFn fun j => npCov (List.ofFn (d i)) (List.ofFn (d j)))) := by
  have hk' : (0 : ℝ) ≤ (k : ℝ) - 1 := by
    have : (2 : ℝ) ≤ (k : ℝ) := by exact_mod_cast hk
    linarith
  generalize hc : (fun (i : Fin n) (t : Fin k) => d i t - mean (List.ofFn (d i))) = c
  have hentry : ∀ i j, npCov (List.ofFn (d i)) (List.ofFn (d j)) = (∑ t, c i t * c j t) / ((k : ℝ) - 1) := by
    intro i j
    have hz : List.zipWith (fun a b => (a - mean (List.ofFn (d i))) * (b - mean (List.ofFn (d j)))) (List.ofFn (d i)) (List.ofFn (d j)) =
        List.ofFn fun t => c i t * c j t := by
      refine List.ext_getElem (by simp) fun t h1 h2 => ?_
      simp [← hc]
    simp only [npCov, hz, List.sum_ofFn, List.length_ofFn]
  refine ⟨⟨?_, fun x => ?_⟩, fun hn => ?_⟩
  · ext i j
    show npCov (List.ofFn (d j)) (List.ofFn (d i)) = npCov (List.ofFn (d i)) (List.ofFn (d j))
    rw [hentry, hentry]
    congr 1
    exact Finset.sum_congr rfl fun t _ => mul_comm _ _
  · have h : (x ⬝ᵥ (fun i j => npCov (List.ofFn (d i)) (List.ofFn (d j)) : Matrix (Fin n) (Fin n) ℝ) *ᵥ x) =
        (∑ t, (∑ i, x i * c i t) ^ 2) / ((k : ℝ) - 1) := by
      simp only [Matrix.mulVec, dotProduct, hentry]
      have h1 : ∀ t, (∑ i, x i * c i t) ^ 2 = ∑ i, ∑ j, x i * c i t * (x j * c j t) := fun t => by
        rw [sq, Finset.sum_mul_sum]
      simp only [h1]
      rw [Finset.sum_comm, Finset.sum_div]
      refine Finset.sum_congr rfl fun i _ => ?_
      rw [Finset.sum_comm, Finset.sum_div, Finset.mul_sum]
      refine Finset.sum_congr rfl fun j _ => ?_
      rw [div_mul_eq_mul_div, mul_div_assoc', Finset.sum_mul, Finset.mul_sum]
      congr 1
      exact Finset.sum_congr rfl fun t _ => by ring
    rw [h]
    exact div_nonneg (Finset.sum_nonneg fun t _ => sq_nonneg _) hk'
  · have hl : (mahaRows d).length = n := by simp [mahaRows]
    have hm : covarianceMatrix (mahaRows d) = .matrix ((mahaRows d).map fun x => (mahaRows d).map fun y => npCov x y) := by
      match hr : mahaRows d with
      | [] => rfl
      | [r] => rw [hr] at hl; exact absurd hl.symm hn
      | _ :: _ :: _ => rfl
    rw [hm, mahaRows, List.map_ofFn]
    congr 2
    funext i
    simp [List.map_ofFn, Function.comp_def]

/-- The inverse of a matrix that has one is its Moore-Penrose inverse. -/
theorem isPinv_inv {C : Matrix (Fin n) (Fin n) ℝ} (hd : C.det ≠ 0) : IsPinv C C⁻¹ := by
  have h1 := Matrix.mul_nonsing_inv C hd.isUnit
  have h2 := Matrix.nonsing_inv_mul C hd.isUnit
  exact ⟨by rw [h1, Matrix.one_mul], by rw [h2, Matrix.one_mul], by rw [h1, Matrix.transpose_one], by rw [h2, Matrix.transpose_one]⟩

/-- The Moore-Penrose inverse of the matrices of rank one with two rows. -/
noncomputable def rankOne (M : Matrix (Fin 2) (Fin 2) ℝ) : Matrix (Fin 2) (Fin 2) ℝ := fun i j => M i j / (M 0 0 + M 1 1) ^ 2

/-- The covariance of two attributes that are always the same. -/
def twins : Matrix (Fin 2) (Fin 2) ℝ := !![1, 1; 1, 1]

theorem twins_covariance : Covariance twins := by
  refine ⟨by ext i j; fin_cases i <;> fin_cases j <;> simp [twins], fun x => ?_⟩
  simp only [twins, Matrix.mulVec, dotProduct, Fin.sum_univ_two, Matrix.of_apply, Matrix.cons_val_zero, Matrix.cons_val_one]
  nlinarith [sq_nonneg (x 0 + x 1)]

theorem twins_pinv {u : Fin 2 → ℝ} (h : u = ![1, 1] ∨ u = ![1, 2]) : IsPinv (rescaleCov u twins) (rankOne (rescaleCov u twins)) := by
  obtain rfl | rfl := h <;> constructor <;> ext i j <;> fin_cases i <;> fin_cases j <;>
    simp [twins, rankOne, rescaleCov, Matrix.mul_apply, Fin.sum_univ_two] <;> norm_num

/-- With two attributes that are always the same, the distance of two points depends on the units, and different points are at distance 0. -/
theorem C167_units_violated : Covariance twins ∧ IsPinv twins (rankOne twins) ∧
    IsPinv (rescaleCov ![1, 2] twins) (rankOne (rescaleCov ![1, 2] twins)) ∧
    mahalanobisDistance rankOne ![1, 0] 0 twins = 1 / 2 ∧
    mahalanobisDistance rankOne (rescale ![1, 2] ![1, 0]) (rescale ![1, 2] 0) (rescaleCov ![1, 2] twins) = 1 / 5 ∧
    mahalanobisDistance rankOne ![1, -1] 0 twins = 0 := by
  have h1 : rescaleCov ![1, 1] twins = twins := by ext i j; fin_cases i <;> fin_cases j <;> simp [twins, rescaleCov]
  refine ⟨twins_covariance, ?_, twins_pinv (.inr rfl), ?_, ?_, ?_⟩
  · have := twins_pinv (.inl rfl)
    rwa [h1] at this
  · rw [mahalanobis_eq, Real.sqrt_eq_iff_mul_self_eq_of_pos (by norm_num)]
    simp [twins, rankOne, Matrix.mulVec, dotProduct, Fin.sum_univ_two]
    norm_num
  · rw [mahalanobis_eq, Real.sqrt_eq_iff_mul_self_eq_of_pos (by norm_num)]
    simp [twins, rankOne, rescale, rescaleCov, Matrix.mulVec, dotProduct, Fin.sum_univ_two]
    norm_num
  · rw [mahalanobis_eq]
    simp [twins, rankOne, Matrix.mulVec, dotProduct, Fin.sum_univ_two]

/-- Not vacuous: the covariance of two attributes that go together, but are not the same, and its inverse. -/
example : Covariance !![(2 : ℝ), 1; 1, 2] ∧ (!![(2 : ℝ), 1; 1, 2]).det ≠ 0 ∧ IsPinv !![(2 : ℝ), 1; 1, 2] (!![(2 : ℝ), 1; 1, 2])⁻¹ ∧
    ∀ i, (![1, 1000] : Fin 2 → ℝ) i ≠ 0 := by
  have hd : (!![(2 : ℝ), 1; 1, 2]).det ≠ 0 := by rw [Matrix.det_fin_two_of]; norm_num
  refine ⟨⟨by ext i j; fin_cases i <;> fin_cases j <;> simp, fun x => ?_⟩, hd, isPinv_inv hd, fun i => by fin_cases i <;> simp⟩
  simp only [Matrix.mulVec, dotProduct, Fin.sum_univ_two, Matrix.of_apply, Matrix.cons_val_zero, Matrix.cons_val_one]
  nlinarith [sq_nonneg (x 0 + x 1), sq_nonneg (x 0), sq_nonneg (x 1)]

end DC.Data
