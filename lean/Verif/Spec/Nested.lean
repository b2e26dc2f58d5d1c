import Mathlib.Analysis.SpecialFunctions.Log.Basic
import Mathlib.Algebra.BigOperators.Fin

/-!
# Specification: the nested logit model

The textbook nested logit model, written over real numbers and independently of the kernel.  Nodes are
numbered so that every child has a smaller number than its parent; nodes `0 .. nAlts-1` are the elemental
alternatives and `nNodes - 1` is the root.
-/

namespace Larch.Spec

open scoped BigOperators
open Classical

/-- Shape of a nesting tree with the availability of the alternatives. -/
structure Shape where
  nAlts : Nat
  nNodes : Nat
  /-- `child p c`: `c` is directly below `p`. -/
  child : Nat → Nat → Prop
  /-- availability of elemental alternatives -/
  av : Nat → Prop

namespace Shape

/-- The root node. -/
def root (S : Shape) : Nat := S.nNodes - 1

/-- A nest is available when some child is. -/
def avail (S : Shape) (n : Nat) : Prop :=
  if n < S.nAlts then S.av n else ∃ c : Fin n, S.child n c ∧ avail S c
termination_by n
decreasing_by exact c.2

/-- Systematic value of a node: the utility of an alternative, the logsum of a nest
`mu * log (∑ exp (value child / mu))` over available children. -/
noncomputable def value (S : Shape) (mu u : Nat → ℝ) (n : Nat) : ℝ :=
  if n < S.nAlts then u n
  else mu n * Real.log (∑ c : Fin n, if S.child n c ∧ S.avail c then Real.exp (value S mu u c / mu n) else 0)
termination_by n
decreasing_by exact c.2

/-- Denominator of the conditional choice probabilities inside nest `n`. -/
noncomputable def denom (S : Shape) (mu u : Nat → ℝ) (n : Nat) : ℝ :=
  ∑ c : Fin n, if S.child n c ∧ S.avail c then Real.exp (S.value mu u c / mu n) else 0

/-- Probability of a node: 1 for the root, `P(parent) * exp (value / mu) / ∑ exp (value sibling / mu)` for an
available child, 0 for an unavailable one. -/
noncomputable def prob (S : Shape) (mu u : Nat → ℝ) (n : Nat) : ℝ :=
  if n = S.root then 1
  else if S.avail n then
    ∑ k : Fin (S.nNodes - (n + 1)),
      if S.child (n + 1 + k) n then
        prob S mu u (n + 1 + k) * (Real.exp (S.value mu u n / mu (n + 1 + k)) / S.denom mu u (n + 1 + k))
      else 0
  else 0
termination_by S.nNodes - n
decreasing_by have := k.2; omega

/-- Log likelihood of one case: weight times the sum of choice times log probability. -/
noncomputable def loglike (S : Shape) (mu u ch : Nat → ℝ) (wt : ℝ) : ℝ :=
  wt * ∑ a ∈ Finset.range S.nAlts, ch a * Real.log (S.prob mu u a)

end Shape

end Larch.Spec
