import Verif.Model.Ext

/-!
# What soft penalties should satisfy
-/

namespace Larch.Pen

/-- A usable pair of bounds: each is absent or finite, and the lower one is not above the upper one. -/
inductive BoundsOk : X → X → Prop
  | none : BoundsOk .ninf .pinf
  | low (l : ℝ) : BoundsOk (.fin l) .pinf
  | high (u : ℝ) : BoundsOk .ninf (.fin u)
  | both (l u : ℝ) (h : l ≤ u) : BoundsOk (.fin l) (.fin u)

/-- By how much `x` is below the lower bound. -/
noncomputable def below (x : ℝ) : X → ℝ
  | .fin l => max 0 (l - x)
  | _ => 0

/-- By how much `x` is above the upper bound. -/
noncomputable def above (x : ℝ) : X → ℝ
  | .fin u => max 0 (x - u)
  | _ => 0

/-- The violation is not in the window between the cuts of the two functions. -/
def Clear (s viol : ℝ) : Prop := viol < 10 / s ∨ 1000 / s < viol

end Larch.Pen
