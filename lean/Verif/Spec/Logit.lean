import Verif.Spec.Network

/-!
# Specification: multinomial logit for one case

The textbook model over the reals: alternatives `0 .. n-1`, those with `A a` are offered, `V a` are their utilities.
-/

namespace Larch.Spec

open scoped BigOperators

/-- Sum of the exponentiated utilities of the offered alternatives. -/
noncomputable def expSum (n : Nat) (A : Nat → Bool) (V : Nat → ℝ) : ℝ :=
  ∑ b ∈ Finset.range n, if A b = true then Real.exp (V b) else 0

/-- Choice probability. -/
noncomputable def logitProb (n : Nat) (A : Nat → Bool) (V : Nat → ℝ) (a : Nat) : ℝ :=
  if A a = true then Real.exp (V a) / expSum n A V else 0

/-- Log likelihood of one case. -/
noncomputable def logitLL (n : Nat) (A : Nat → Bool) (V ch : Nat → ℝ) (wt : ℝ) : ℝ :=
  wt * ∑ a ∈ Finset.range n, ch a * Real.log (logitProb n A V a)

/-- Utilities of offered alternatives are within the range in which the code does not treat them as infinite. -/
def Moderate (n : Nat) (A : Nat → Bool) (V : Nat → ℝ) : Prop := ∀ a < n, A a = true → |V a| < 10 ^ 38

/-- Standing conditions on a case of a multinomial logit model evaluated by the compiled kernels: alternatives `A` are
offered with finite data `x`, sizes are positive and utilities are of moderate magnitude. -/
structure LogitCase (n : Nat) (M : Kernel.Terms) (θ : Nat → ℝ) (C : Kernel.Case) (A : Nat → Bool) (x : Nat → Nat → ℝ) : Prop where
  offers : Offers n M C A x
  size : Sizes n M θ A x
  moderate : Moderate n A (utility M θ (coReal C) x)

end Larch.Spec
