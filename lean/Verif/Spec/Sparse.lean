/-!
# Specification: which case a sparse row belongs to
-/

namespace Larch.Spec

/-- Row `row` belongs to case `c`: it lies between the end of the previous case (0 for the first) and the end of
case `c`. -/
def RowInCase (ends : List Nat) (row c : Nat) : Prop :=
  (c = 0 ∨ ∃ s, ends[c - 1]? = some s ∧ s ≤ row) ∧ ∃ e, ends[c]? = some e ∧ row < e

/-- No case (except possibly the first) is empty. -/
def NoEmptyCase (ends : List Nat) : Prop := ends.Pairwise (· < ·)

end Larch.Spec
