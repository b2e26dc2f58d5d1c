import Verif.Model.Evaluate
import Verif.Spec.Linear

/-!
# What evaluating a linear function should give

`FuncHas env p l x` (`Verif/Spec/Linear.lean`): the sum of scale × parameter × data.  Here: what it means that the namespaces given
describe the environment `env`.
-/

namespace Larch.Evaluate

open Larch.Linear Larch.Py

/-- The namespace gives values to names (not to other texts), each the one the environment gives. -/
def Describes (env : Env) (ns : NS) : Prop := ∀ k x, (k, x) ∈ ns → ∃ s, k = [.name s] ∧ x = env.var s

/-- Every variable of the data of the function has a value in one of the namespaces. -/
def Covers (ns kw : NS) (l : List Comp) : Prop :=
  ∀ c ∈ l, ∀ e, Reads c.data e → ∀ s ∈ vars e, ∃ x, ([Tok.name s], x) ∈ ns ++ kw

end Larch.Evaluate
