import Mathlib.Data.List.Basic
import Mathlib.Logic.Function.Basic
import Mathlib.Algebra.Notation.Defs

/-!
# Applying a prelearner (`larch/prelearning.py:169-247`)

`filter_ca_columns`, `filter_and_join_columns` and `apply`.  A value is `some v` or missing; a row of a table is its values by column; an entry of the
lists of columns is a column or an expression, which is evaluated in each row.  The classifier is the function that gives the logarithm of its prediction
for the inputs of one row.
-/

namespace Larch.PreApply

/-- A row: its values by column. -/
abbrev Row (V : Type) := String → Option V

/-- The exceptions: `ValueError` of pandas (columns of the same name; another number of predictions than of rows), `TypeError` of `None[...]`. -/
inductive Fault where
  | overlap
  | lengths
  | noTable
deriving DecidableEq

/-- A prelearner: the two lists of columns (`co` is empty for `None`), the value of an entry in a row, the prediction. -/
structure Learner (V : Type) where
  ca : List String
  co : List String
  eval : String → Row V → Option V
  score : List (Option V) → Option V
  output : String

variable {V : Type}

/-- `filter_ca_columns` and the like for the other table, `prelearning.py:169-179, 183-190`. -/
def inputs (L : Learner V) (cols : List String) (r : Row V) : List (Option V) := cols.map (fun c => L.eval c r)

/-- `training_X.join(X_co, on=..., how='left')` for one row: a row for each row of its case, or one with missing values. -/
def joinRow (L : Learner V) (co : List (Int × Row V)) (e : Int × Row V) : List (List (Option V)) :=
  let found := co.filter (fun q => q.1 = e.1)
  if found.isEmpty then [inputs L L.ca e.2 ++ L.co.map (fun _ => none)]
  else found.map (fun q => inputs L L.ca e.2 ++ inputs L L.co q.2)

/-- `.fillna(0)`. -/
def fill [Zero V] (l : List (Option V)) : List (Option V) := l.map (fun v => some (v.getD 0))

/-- `filter_and_join_columns(X_ca, X_co)`, `prelearning.py:181-192`; rows are pairs of case and values. -/
def joinColumns [Zero V] (L : Learner V) (ca : List (Int × Row V)) (co : Option (List (Int × Row V))) : Except Fault (List (List (Option V))) :=
  if L.co.isEmpty then .ok (ca.map (fun e => inputs L L.ca e.2))
  else
    match co with
    | none => .error .noTable
    | some t =>
      if L.ca.any (fun c => L.co.contains c) then .error .overlap
      else .ok ((ca.flatMap (joinRow L t)).map fill)

/-- `apply(X, output_name=...)`, `prelearning.py:195-247`: the table of the alternatives afterwards (it is changed in place). -/
def apply [Zero V] (L : Learner V) (ca : List (Int × Row V)) (co : Option (List (Int × Row V))) (out : Option String) :
    Except Fault (List (Int × Row V)) :=
  (joinColumns L ca co).bind (fun X =>
    if X.length = ca.length then
      .ok (ca.zipWith (fun e x => (e.1, Function.update e.2 (out.getD L.output) (L.score x))) X)
    else .error .lengths)

end Larch.PreApply
