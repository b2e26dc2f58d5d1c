import Mathlib.Analysis.SpecialFunctions.Pow.Real
import Mathlib.Algebra.BigOperators.Group.List.Basic

/-!
# Bounded kernel densities (`larch/util/bounded_kde.py`)

`BoundedKDE` (36-100) and `weighted_sample_std` (26-34) over the reals.  Data are pairs of a value and a weight (one for each value when no weights are
given), without NaN.  `sklearn`'s `KernelDensity` is the weighted mean of kernels of the given bandwidth around the data (`exp` of
`score_samples` of its logarithm).  The choice of a bandwidth is a number here, but for the variance it is computed from.
-/

namespace Larch.Kde

/-- The total weight. -/
noncomputable def weight (d : List (ℝ × ℝ)) : ℝ := (d.map Prod.snd).sum

/-- `x[weights>0]`, `weights[weights>0]`, lines 51-53. -/
noncomputable def used (d : List (ℝ × ℝ)) : List (ℝ × ℝ) := d.filter (fun p => 0 < p.2)

/-- `np.exp(self.kde.score_samples(x))`: the density of the kernel estimate. -/
noncomputable def density (k : ℝ → ℝ) (h : ℝ) (d : List (ℝ × ℝ)) (x : ℝ) : ℝ :=
  (d.map (fun p => p.2 * (k ((x - p.1) / h) / h))).sum / weight d

/-- The arguments `lb` and `ub`: `None`, the default, or a number. -/
inductive Bound where
  | no
  | auto
  | value (b : ℝ)

/-- `self.lower_bound`, lines 39-42: of all values, those without weight too. -/
noncomputable def lower (b : Bound) (d : List (ℝ × ℝ)) : Option ℝ :=
  match b with
  | .no => none
  | .value v => some v
  | .auto => (d.map Prod.fst).min?

/-- `self.upper_bound`, lines 43-46. -/
noncomputable def upper (b : Bound) (d : List (ℝ × ℝ)) : Option ℝ :=
  match b with
  | .no => none
  | .value v => some v
  | .auto => (d.map Prod.fst).max?

/-- The term added for a bound, lines 83-86. -/
noncomputable def mirror (g : ℝ → ℝ) (b : Option ℝ) (x : ℝ) : ℝ :=
  match b with
  | some l => g (2 * l - x)
  | none => 0

/-- `evaluate`, lines 79-87. -/
noncomputable def evaluate (g : ℝ → ℝ) (lb ub : Option ℝ) (x : ℝ) : ℝ := g x + mirror g lb x + mirror g ub x

/-- Whether a point is outside of the bounds, lines 93-96. -/
def outside (lb ub : Option ℝ) (x : ℝ) : Prop := (∃ l, lb = some l ∧ x < l) ∨ (∃ u, ub = some u ∧ u < x)

open Classical in
/-- `__call__`, lines 89-97. -/
noncomputable def call (g : ℝ → ℝ) (lb ub : Option ℝ) (x : ℝ) : ℝ := if outside lb ub x then 0 else evaluate g lb ub x

/-- The whole: `BoundedKDE(x, weights, bw_method=h, lb, ub)(at)`. -/
noncomputable def bounded (k : ℝ → ℝ) (h : ℝ) (d : List (ℝ × ℝ)) (lb ub : Bound) (x : ℝ) : ℝ :=
  call (density k h (used d)) (lower lb d) (upper ub d) x

/-- `np.average(values, weights=weights)`. -/
noncomputable def average (d : List (ℝ × ℝ)) : ℝ := (d.map (fun p => p.1 * p.2)).sum / weight d

/-- The square of `weighted_sample_std(values, weights, ddof=1.0)`, lines 26-34; `none` where numpy gives NaN or infinity. -/
noncomputable def sampleVariance (d : List (ℝ × ℝ)) : Option ℝ :=
  if weight d = 0 ∨ weight d ≤ 1 then none
  else some (average (d.map (fun p => ((p.1 - average d) ^ 2, p.2))) * weight d / (weight d - 1))

end Larch.Kde
