import Verif.Model.Columnize

/-!
# What a data expression means
-/

namespace Larch.ColumnizeSpec

open Larch.Columnize

variable {V : Type}

/-- A name is a column, else a level of the index, else one of the functions provided; all else is unknown. -/
def lookup (S : Sem V) (F : Frame) (col level : String → V) (n : String) : Except Err V :=
  if n ∈ F.cols then .ok (col n)
  else if n ∈ F.levels then .ok (level n)
  else if n ∈ functions then .ok (S.glob n)
  else .error .name

/-- The value of an expression for a frame. -/
def meaning (S : Sem V) (F : Frame) (col level : String → V) (e : Expr) : Except Err V := ev S (lookup S F col level) e

/-- The names of variables in an expression. -/
def vars : Expr → List String
  | .name s => [s]
  | .str _ => []
  | .num _ => []
  | .attr e _ => vars e
  | .index e i => vars e ++ vars i
  | .call f a => vars f ++ vars a
  | .noArgs => []
  | .arg e rest => vars e ++ vars rest
  | .kwarg _ e rest => vars e ++ vars rest
  | .un _ e => vars e
  | .bin _ a b => vars a ++ vars b

/-- The names of attributes and keywords. -/
def labels : Expr → List String
  | .name _ => []
  | .str _ => []
  | .num _ => []
  | .attr e s => s :: labels e
  | .index e i => labels e ++ labels i
  | .call f a => labels f ++ labels a
  | .noArgs => []
  | .arg e rest => labels e ++ labels rest
  | .kwarg s e rest => s :: labels e ++ labels rest
  | .un _ e => labels e
  | .bin _ a b => labels a ++ labels b

/-- Names of the frame. -/
def Frame.has (F : Frame) (n : String) : Prop := n ∈ F.cols ∨ n ∈ F.levels

/-- The expression uses no name that is visible by accident. -/
def Clean (F : Frame) (e : Expr) : Prop := ∀ n ∈ vars e, Frame.has F n ∨ (n ∉ internals ∧ n ≠ "df")

end Larch.ColumnizeSpec
