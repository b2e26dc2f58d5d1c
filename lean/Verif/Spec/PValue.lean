import Verif.Model.PValue
import Verif.Spec.Linear

/-!
# What the value of a parameter expression should be

The parameters an expression names; what it means that a model's parameters have given real values.  The value of an expression
over real parameter values is `PM.Has` / `Obj.Has` (`Verif/Model/PMath.lean`, `Verif/Spec/Linear.lean`): plain arithmetic.
-/

namespace Larch.PVal

open Larch.Linear Larch.Params

/-- The parameters named in a piece of parameter arithmetic. -/
def opNames : PM → List String
  | .ref s => [s]
  | .noop s => [s]
  | .num _ => []
  | .lin c => [c.param]
  | .bin _ l r => opNames l ++ opNames r

/-- The parameters named in anything given to `pvalue`. -/
def leafNames : Leaf → List String
  | .name s => [s]
  | .ref s => [s]
  | .op e => opNames e
  | .comp c => [c.param]
  | .func l => l.map Comp.param
  | .num _ => []

/-- The model has the parameters `ns`, with the (finite) values `p`. -/
def Holds (f : Frame) (p : String → ℝ) (ns : List String) : Prop := ∀ n ∈ ns, ∃ r ∈ f.rows, r.name = n ∧ r.value = .fin (p n)

/-- The object a user has written, as an argument of `pvalue`. -/
def ofObj : Obj → Leaf
  | .num n => .num n.val
  | .par s => .ref s
  | .dat _ => .num 0
  | .comp c => .comp c
  | .func l => .func l
  | .pm e => .op e

end Larch.PVal
