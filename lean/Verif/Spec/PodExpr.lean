import Verif.Model.PodExpr

/-!
# What an expression over the variables of a pod means
-/

namespace Larch.PodExprSpec

open Larch.PodExpr

variable {K : Type} [DecidableEq K] [Zero K] [One K]

/-- The value of an expression at one case, given the values of the variables there (functions of a whole array have none). -/
def valueAt (x : String → K) : Expr K → K
  | .var n => x n
  | .lit k => k
  | .un f e => f (valueAt x e)
  | .bin f a b => f (valueAt x a) (valueAt x b)
  | .cmp f a b => f (valueAt x a) (valueAt x b)
  | .isIn neg a s => if (valueAt x a ∈ s) ↔ (neg = true) then 0 else 1
  | .whole _ _ => 0

/-- The names in an expression. -/
def namesIn : Expr K → List String
  | .var n => [n]
  | .lit _ => []
  | .un _ e => namesIn e
  | .bin _ a b => namesIn a ++ namesIn b
  | .cmp _ a b => namesIn a ++ namesIn b
  | .isIn _ a _ => namesIn a
  | .whole _ e => namesIn e

/-- There is no `in` and no function of the whole array. -/
def Simple : Expr K → Prop
  | .var _ => True
  | .lit _ => True
  | .un _ e => Simple e
  | .bin _ a b => Simple a ∧ Simple b
  | .cmp _ a b => Simple a ∧ Simple b
  | .isIn _ _ _ => False
  | .whole _ _ => False

/-- No function of the whole array; no `in` inside of a comparison or an `in`; what stands before an `in` has a variable. -/
def Plain : Expr K → Prop
  | .var _ => True
  | .lit _ => True
  | .un _ e => Plain e
  | .bin _ a b => Plain a ∧ Plain b
  | .cmp _ a b => Simple a ∧ Simple b
  | .isIn _ a _ => Simple a ∧ namesIn a ≠ []
  | .whole _ _ => False

/-- Each variable of the pod has a value for each case. -/
def Whole (p : Pod K) : Prop := ∀ e ∈ p.vars, e.2.length = p.cases

/-- The value of a stored variable at a case. -/
def stored (p : Pod K) (i : Nat) (n : String) : K := ((p.vars.lookup n).bind (fun l => l[i]?)).getD 0

/-- The positions read. -/
def positions (p : Pod K) (sel : Option (List Nat)) : List Nat := sel.getD (List.range p.cases)

/-- The selector selects cases of the pod. -/
def Within (p : Pod K) (sel : Option (List Nat)) : Prop := ∀ i ∈ positions p sel, i < p.cases

end Larch.PodExprSpec
