import Verif.Model.Pods

/-!
# What is expected of lists of pods
-/

namespace Larch.Pods

/-- Two shapes agree: the same dimensions, except that a last dimension may be not known yet (`-1`) in one of them. -/
def Agree (s t : Shape) : Prop := s.lead = t.lead ∧ (s.last = t.last ∨ s.last = -1 ∨ t.last = -1)

/-- The arrays of the pods fit together. -/
def AllAgree (l : List Pod) : Prop := ∀ p ∈ l, ∀ q ∈ l, Agree p.shape q.shape

/-- A shape as pods have them: sizes are not negative, and only the last can be not known yet; the first, the number of cases, is known. -/
structure Proper (s : Shape) : Prop where
  lead : ∀ d ∈ s.lead, 0 ≤ d
  last : s.last = -1 ∨ 0 ≤ s.last
  cases : s.lead = [] → 0 ≤ s.last

/-- A pod as users have them: if it can be broadcast over the alternatives, its own dimensions are known. -/
structure ProperPod (p : Pod) : Prop where
  shape : Proper p.shape
  known : p.broadcasts = true → 0 ≤ p.shape.last

/-- The pods that a call puts into a list. -/
def Op.pods : Op → List Pod
  | .insert _ p => [p]
  | .set _ p => [p]
  | .del _ => []

def SOp.pods : SOp → List Pod
  | .add p _ => [p]
  | .alternatives _ => []
  | .reset _ => []

end Larch.Pods
