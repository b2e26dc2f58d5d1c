import Verif.Model.Constraints

/-!
# What the constraints mean

Stated about the values `v` of the named parameters.
-/

namespace Larch.Con

/-- The parameter vector of a model whose parameters are `names`, with values `v`. -/
def vec (names : List String) (v : String → ℝ) : Nat → ℝ := fun i => v (names.getD i "")

/-- `min_ratio ≤ num / den ≤ max_ratio`. -/
def Ratio.Holds (c : Ratio) (v : String → ℝ) : Prop :=
  (∀ r, c.minR = some r → r ≤ v c.num / v c.den) ∧ (∀ r, c.maxR = some r → v c.num / v c.den ≤ r)

/-- `less ≤ more`. -/
def Ordering.Holds (c : Ordering) (v : String → ℝ) : Prop := v c.less ≤ v c.more

/-- A number is at least / at most a bound (which may be infinite). -/
def AtLeast (r : ℝ) : X → Prop
  | .fin m => m ≤ r
  | .ninf => True
  | _ => False

def AtMost (r : ℝ) : X → Prop
  | .fin m => r ≤ m
  | .pinf => True
  | _ => False

/-- `minimum ≤ p ≤ maximum`. -/
def Fixed.Holds (c : Fixed) (v : String → ℝ) : Prop :=
  (∀ m, c.mn = some m → AtLeast (v c.p) m) ∧ (∀ m, c.mx = some m → AtMost (v c.p) m)

/-- A value is non-negative. -/
def NonNeg : X → Prop
  | .fin r => 0 ≤ r
  | .pinf => True
  | _ => False

/-- A parameter vector of length `n` satisfies a linear constraint. -/
def LinRow.Sat (r : LinRow) (n : Nat) (x : Nat → ℝ) : Prop :=
  AtLeast (∑ i ∈ Finset.range n, r.a i * x i) r.lb ∧ AtMost (∑ i ∈ Finset.range n, r.a i * x i) r.ub

/-- The denominator respects the bounds of the frame and is not zero. -/
def DenOk (d : ℝ) (bmin bmax : X) : Prop := d ≠ 0 ∧ AtLeast d bmin ∧ AtMost d bmax

end Larch.Con
