/-!
# What selecting by a label means

Nothing here mentions dictionaries or the model.
-/

namespace Larch.DissolveSpec

/-- Position `i` is the one that has the label `v`. -/
def LabelAt (labels : List Int) (i : Nat) (v : Int) : Prop :=
  labels[i]? = some v ∧ ∀ (k : Nat), labels[k]? = some v → k = i

end Larch.DissolveSpec
