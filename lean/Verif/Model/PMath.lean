import Verif.Spec.PyExpr

/-!
# Parameter arithmetic

Model of `larch/model/linear_math.py`: `ParameterAdd`, `ParameterSubtract`, `ParameterMultiply`, `ParameterDivide`,
`ParameterNoop` over parameter references, numbers and (see `ParameterRef_C.__mul__`) linear components, with their
`value` and `repr`.  `ParameterNegate` is never constructed by larch and is not modelled.
-/

namespace Larch.Linear

open Larch.Py

/-- `LinearComponent_C`, `larch/model/linear.pyx:416-433`: parameter name, data expression (a string, as tokens),
scale. -/
structure Comp where
  param : String
  data : List Tok
  scale : ℝ

inductive POp where
  | add | sub | mul | div
deriving DecidableEq

/-- Objects that occur in parameter arithmetic. -/
inductive PM where
  | ref (s : String)
  | num (v : ℝ)
  | lin (c : Comp)
  | noop (s : String)
  | bin (o : POp) (l r : PM)

/-- `_op` of the four classes, `linear_math.py:191-253`. -/
def POp.tok : POp → BOp
  | .add => .add
  | .sub => .sub
  | .mul => .mul
  | .div => .div

/-- `_precedence`, `linear_math.py:193, 209, 225, 241, 257`, `linear.pyx:61`; numbers and linear components have none
and get 0 (`linear_math.py:23`). -/
def PM.prec : PM → Nat
  | .ref _ => 99
  | .num _ => 0
  | .lin _ => 0
  | .noop _ => 98
  | .bin .add _ _ => 10
  | .bin .sub _ _ => 10
  | .bin .mul _ _ => 11
  | .bin .div _ _ => 11

/-- `_precedence` of the operation itself. -/
def POp.prec : POp → Nat
  | .add => 10
  | .sub => 10
  | .mul => 11
  | .div => 11

/-- `repr` of a number: a sign for negative numbers, then the literal (`txt` is the text of the literal). -/
noncomputable def numToks (txt : ℝ → String) (v : ℝ) : List Tok :=
  if v < 0 then [.op .sub, .num (txt (-v)) (-v)] else [.num (txt v) v]

/-- `_parenthize_repr`, `linear_math.py:22-27`. -/
def parenthizeRepr (prec localPrec : Nat) (s : List Tok) : List Tok :=
  if prec < localPrec then .lp :: (s ++ [.rp]) else s

/-- `__repr__` (and `__str__`, the same), `linear_math.py:151-155, 176-188`, `linear.pyx:70-74` (the text `P.name` or
`P('name')` is one token), `linear.pyx:441-454` for components (`P.name * scale * X.data`; the abbreviated forms for
scale 1 are not modelled). -/
noncomputable def PM.repr (txt : ℝ → String) : PM → List Tok
  | .ref s => [.name s]
  | .noop s => [.name s]
  | .num v => numToks txt v
  | .lin c => .name c.param :: .op .mul :: (numToks txt c.scale ++ .op .mul :: (.name "X" :: .lp :: (c.data ++ [.rp])))
  | .bin o l r =>
    parenthizeRepr l.prec o.prec (l.repr txt) ++ .op o.tok :: parenthizeRepr r.prec o.prec (r.repr txt)

/-- What `value(...)` returns, when it returns a number, `linear_math.py:191-260`: arithmetic on the operands' values;
division by zero raises; a linear component as operand is multiplied as it stands, so that no number is returned. -/
inductive PM.Has (p : String → ℝ) : PM → ℝ → Prop
  | ref {s} : PM.Has p (.ref s) (p s)
  | num {v} : PM.Has p (.num v) v
  | noop {s} : PM.Has p (.noop s) (p s)
  | add {l r x y} : PM.Has p l x → PM.Has p r y → PM.Has p (.bin .add l r) (x + y)
  | sub {l r x y} : PM.Has p l x → PM.Has p r y → PM.Has p (.bin .sub l r) (x - y)
  | mul {l r x y} : PM.Has p l x → PM.Has p r y → PM.Has p (.bin .mul l r) (x * y)
  | div {l r x y} : PM.Has p l x → PM.Has p r y → y ≠ 0 → PM.Has p (.bin .div l r) (x / y)

end Larch.Linear
