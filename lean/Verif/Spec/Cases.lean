import Mathlib.Data.Int.Interval
import Mathlib.Data.Real.Basic
import Mathlib.Algebra.BigOperators.Group.Finset.Basic

/-!
# Specification: which cases an evaluation uses

Independent of the drivers: a case is selected when it is in the arithmetic progression from `start` with the given
step, before `stop`, and not excluded by the cross-validation settings.
-/

namespace Larch.Spec

/-- `c` is one of `start, start + step, …` before `stop`. -/
def InSlice (start stop step c : Int) : Prop := start ≤ c ∧ c < stop ∧ step ∣ c - start

/-- `c` is not excluded by `leave_out` / `keep_only` (negative means not set). -/
def KeptBy (leaveOut keepOnly subsample c : Int) : Prop :=
  (0 ≤ leaveOut → c % subsample ≠ leaveOut) ∧ (0 ≤ keepOnly → c % subsample = keepOnly)

open Classical in
/-- Sum of `f` over the selected cases. -/
noncomputable def sliceSum (start stop step leaveOut keepOnly subsample : Int) (f : Int → ℝ) : ℝ :=
  ∑ c ∈ (Finset.Ico start stop).filter
    (fun c => InSlice start stop step c ∧ KeptBy leaveOut keepOnly subsample c), f c

end Larch.Spec
