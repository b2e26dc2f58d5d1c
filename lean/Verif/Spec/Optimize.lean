import Mathlib.Order.Basic
import Mathlib.Data.List.Chain

/-! # What it means that a search improves an objective (C29) -/

namespace Larch.OptimSpec

variable {V L : Type} [LinearOrder L]

/-- `q` is strictly better than `p`, and the objective is a number at both (`none` is NaN). -/
def Better (f : V → Option L) (p q : V) : Prop := ∃ a b, f p = some a ∧ f q = some b ∧ a < b

/-- Every point is strictly better than the one before it. -/
def Improving (f : V → Option L) (path : List V) : Prop := path.IsChain (Better f)

/-- `q` is at least as good as `p`. -/
def NotWorse (f : V → Option L) (p q : V) : Prop := ∃ a b, f p = some a ∧ f q = some b ∧ a ≤ b

/-- The last point of the path `p :: path`. -/
def lastOf (p : V) (path : List V) : V := path.getLastD p

end Larch.OptimSpec
