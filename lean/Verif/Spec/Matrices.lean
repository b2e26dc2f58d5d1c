import Verif.Model.Matrices

/-!
# What the stored matrices and locks should be
-/

namespace Larch.MatricesSpec

open Larch.Params Larch.Matrices

variable {α : Type}

/-- The last calculation made. -/
def lastCalc : List (Op α) → Option (Calc α)
  | [] => none
  | op :: ops =>
    match lastCalc ops, op with
    | some c, _ => some c
    | none, .compute c => some c
    | none, _ => none

/-- The number in the row of `a` and the column of `b`. -/
def at? (fr : Square α) (a b : String) : Option α :=
  match fr.cells[fr.labels.idxOf a]? with
  | none => none
  | some row => row[fr.labels.idxOf b]?

/-- The frame shows the function under its labels. -/
def Shows (fr : Square α) (g : String → String → α) : Prop := ∀ a ∈ fr.labels, ∀ b ∈ fr.labels, at? fr a b = some (g a b)

/-- Reading gives `g`, correctly labelled with the parameters of the model, or raises. -/
def Labels (s : St α) (k : Key) (g : String → String → α) : Prop :=
  readMat s k = some (.error "ValueError") ∨ ∃ fr, readMat s k = some (.ok fr) ∧ fr.labels = s.f.names ∧ Shows fr g

/-- The covariance matrix of a calculation. -/
def Calc.final (c : Calc α) : String → String → α := c.con.getD c.cov

/-- Whether parameters may disappear. -/
def removes : Op α → Bool
  | .removeUnused => true
  | _ => false

end Larch.MatricesSpec
