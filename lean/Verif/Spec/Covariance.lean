import Mathlib.Data.Matrix.Mul
import Mathlib.Data.Real.Basic

/-! # Vocabulary for covariance matrices (C46) -/

open Matrix

namespace Larch.CovSpec

variable {n : Type} [Fintype n]

/-- Variance of the linear combination `v` of the parameters. -/
def variance (s : Matrix n n ℝ) (v : n → ℝ) : ℝ := v ⬝ᵥ s *ᵥ v

/-- A matrix that can be a covariance matrix: symmetric, no negative variance. -/
structure IsCovariance (s : Matrix n n ℝ) : Prop where
  symm : sᵀ = s
  nonneg : ∀ v, 0 ≤ variance s v

/-- No linear combination has a greater variance under `t` than under `s`. -/
def NotGreater (t s : Matrix n n ℝ) : Prop := ∀ v, variance t v ≤ variance s v

end Larch.CovSpec
