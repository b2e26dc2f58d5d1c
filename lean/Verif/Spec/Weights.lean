import Verif.Model.Weights

/-!
# What weights mean

A case contributes to log likelihood, gradient and BHHH matrix only through the numbers `choice * weight * normalization` of its
alternatives.
-/

namespace Larch.Spec

open Larch.Weights

variable {K : Type} [Field K] [LinearOrder K]

/-- The weight with which the choice of alternative `j` in case `i` counts. -/
def contribution (w : W K) (i j : Nat) : K := w.ch i j * caseWt w i * w.norm

/-- No negative choices. -/
def NonnegChoices (w : W K) : Prop := ∀ i < w.nCases, ∀ j < w.nAlts, 0 ≤ w.ch i j

/-- Total choice of a case. -/
def choiceTotal (w : W K) (i : Nat) : K := ∑ j ∈ Finset.range w.nAlts, w.ch i j

end Larch.Spec
