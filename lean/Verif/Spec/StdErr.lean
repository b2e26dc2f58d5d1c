import Mathlib.Data.Matrix.Mul
import Mathlib.Data.Real.Basic
import Verif.Model.Ext

/-! # Vocabulary for the statistics of estimates (C112-C114) -/

open Matrix

namespace Larch.StdErrSpec

/-- A direction in which the free parameters can be moved (held-fast ones stay) such that the gradient of the log likelihood changes only by
`l` times the movement: with `l = 0` the log likelihood is flat (to second order) along it and the estimates are not identified. -/
structure FlatDirection {p : Nat} (info : Matrix (Fin p) (Fin p) ℝ) (held : Fin p → Bool) (v : Fin p → ℝ) (l : ℝ) : Prop where
  moves : v ≠ 0
  free : ∀ i, held i = true → v i = 0
  curvature : ∀ i, held i = false → ∑ j, info i j * v j = l * v i

/-- `se` is the standard deviation of an estimate with variance `var`, and `t` its distance from the null value in these units. -/
def IsStat (var value null : ℝ) (se t : X) : Prop :=
  ∃ s r : ℝ, se = .fin s ∧ t = .fin r ∧ 0 < s ∧ s * s = var ∧ r * s = value - null

open Classical in
/-- How many of the thresholds `x` exceeds. -/
noncomputable def exceeded (x : ℝ) (thresholds : List ℝ) : Nat := (thresholds.filter (fun t => decide (t < x))).length

/-- `k` asterisks. -/
def stars (k : Nat) : String := String.ofList (List.replicate k '*')

/-- 5%, 1% and 0.1% for a standard normal variable (two-sided). -/
noncomputable def normalLevels : List ℝ := [1.9600, 2.5758, 3.2905]

/-- 5%, 1% and 0.1% for half a chi-squared variable with one degree of freedom. -/
noncomputable def ratioLevels : List ℝ := [1.9207, 3.3174, 5.4138]

end Larch.StdErrSpec
