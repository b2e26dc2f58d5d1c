import Verif.Model.QueryCases

/-!
# What selecting cases should do
-/

namespace Larch.QueryCasesSpec

open Larch.QueryCases

variable {L K : Type}

/-- Cases each once, variables of the right sizes. -/
structure Sized (D : DS L K) : Prop where
  distinct : D.caseids.Nodup
  co : ∀ e ∈ D.co, e.2.length = D.caseids.length
  ca : ∀ e ∈ D.ca, e.2.length = D.caseids.length
  ptr : D.ptr.length = D.caseids.length + 1 ∨ D.ptr = []

end Larch.QueryCasesSpec
