import Verif.Model.RefLL
import Verif.Spec.Shared
import Verif.Spec.Logit

/-!
# What the reference log likelihoods are
-/

namespace Larch.Spec

open Larch.Weights

/-- Number of available alternatives. -/
def choiceSet (n : Nat) (A : Nat → Bool) : Nat := ((Finset.range n).filter (fun a => A a = true)).card

/-- "No model at all": every available alternative is equally likely. -/
noncomputable def nilLoglike (av : Nat → Nat → Bool) (w : W ℝ) : ℝ :=
  ∑ i ∈ Finset.range w.nCases, ∑ j ∈ Finset.range w.nAlts, contribution w i j * -Real.log (choiceSet w.nAlts (av i))

/-- The weighted number of times alternative `j` is chosen. -/
noncomputable def timesChosen (w : W ℝ) (j : Nat) : ℝ := ∑ i ∈ Finset.range w.nCases, contribution w i j

/-- The log likelihood when every alternative has its market share as its probability. -/
noncomputable def shareLoglike (w : W ℝ) : ℝ :=
  ∑ j ∈ Finset.range w.nAlts, timesChosen w j * Real.log (timesChosen w j / ∑ l ∈ Finset.range w.nAlts, timesChosen w l)

/-- Alternatives are chosen only where they are available, with nonnegative choices and weights. -/
structure Sound (av : Nat → Nat → Bool) (w : W ℝ) : Prop where
  chosen : ∀ i < w.nCases, ∀ j < w.nAlts, w.ch i j ≠ 0 → av i j = true
  choices : NonnegChoices w
  counts : ∀ i < w.nCases, ∀ j < w.nAlts, 0 ≤ contribution w i j

/-- An optimizer: it returns the log likelihood at some finite constants, not below that at zero where it starts. -/
structure Climbs (maxim : ((Nat → ℝ) → X) → X) : Prop where
  attained : ∀ f, ∃ θ : Nat → ℝ, (∀ p, |θ p| < 10 ^ 38) ∧ maxim f = f θ
  notBelow : ∀ f a b, f (fun _ => 0) = .fin a → maxim f = .fin b → a ≤ b

end Larch.Spec
