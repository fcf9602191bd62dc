import Mathlib.LinearAlgebra.Matrix.NonsingularInverse
import Mathlib.LinearAlgebra.Matrix.DotProduct
import Mathlib.Analysis.Real.Sqrt
/-
The Mahalanobis distance.
Source: dessia_common/datatools/metrics.py 216-237.
Simplification: numbers are reals, and lists of n numbers are vectors, so that lengths agree.
-/
namespace DC.Data

open Matrix

/-- `npy.linalg.pinv` (metrics.py 236): numpy documents it as the Moore-Penrose inverse, that is, by these four equations. -/
structure IsPinv {n : Nat} (C P : Matrix (Fin n) (Fin n) ℝ) : Prop where
  one : C * P * C = C
  two : P * C * P = P
  three : (C * P)ᵀ = C * P
  four : (P * C)ᵀ = P * C

/-- `scipy.spatial.distance.mahalanobis`, which takes the inverse of the covariance: metrics.py 237. -/
noncomputable def scipyMahalanobis {n : Nat} (a b : Fin n → ℝ) (P : Matrix (Fin n) (Fin n) ℝ) : ℝ :=
  Real.sqrt ((a - b) ᵥ* P ⬝ᵥ (a - b))

/-- `mahalanobis_distance`: metrics.py 216-237.  `pinv` is numpy's. -/
noncomputable def mahalanobisDistance {n : Nat} (pinv : Matrix (Fin n) (Fin n) ℝ → Matrix (Fin n) (Fin n) ℝ) (a b : Fin n → ℝ)
    (cov : Matrix (Fin n) (Fin n) ℝ) : ℝ :=
  let inv := pinv cov
  scipyMahalanobis a b inv

end DC.Data
