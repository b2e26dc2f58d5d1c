import Verif.Model.Linear

/-!
# Utility functions from an ActivitySim spec (`larch/util/activitysim/general.py`)

A spec file is a list of rows; each row has the text of a data expression (a token list, see `Model/Linear`) and, per column of
coefficients, the name of a coefficient or nothing (a missing cell, `pandas.isna`).
-/

namespace Larch.SpecUtil

open Larch.Py Larch.Linear

/-- A row of the spec: `getattr(row, x_col)`, and `getattr(row, p_col)` for each column name. -/
structure SpecRow where
  x : List Tok
  coef : String → Option String

/-- The generator of `linear_utility_from_spec`, `general.py:134-138`: `P(...) * X(...)` for the rows whose label is not in
`ignore_x` and that have a coefficient in the column. -/
noncomputable def terms (fm : Fmt) (ignore : List Tok → Bool) (col : String) (rows : List SpecRow) : List (Except Exc Obj) :=
  rows.filterMap (fun r => if ignore r.x then none else (r.coef col).map (fun c => mul fm (.par c) (.dat r.x)))

/-- `linear_utility_from_spec` with a string for `p_col`, `general.py:134-138`: `sum(...)` starts with the integer 0. -/
noncomputable def utility (fm : Fmt) (ignore : List Tok → Bool) (col : String) (rows : List SpecRow) : Except Exc Obj :=
  sumObjs fm (.num zeroNum) (terms fm ignore col rows)

/-- `X(f"{segment_id}=={segval}")`, `general.py:132`, for a numeric identifier. -/
def segTest (seg : String) (v : Num) : List Tok := .name seg :: .eqeq :: v.toks

/-- `linear_utility_from_spec(...) * X(...)`, `general.py:130-132`. -/
noncomputable def segPart (fm : Fmt) (ignore : List Tok → Bool) (rows : List SpecRow) (seg : String) (c : String × Num) :
    Except Exc Obj :=
  match utility fm ignore c.1 rows with
  | .error e => .error e
  | .ok u => mul fm u (.dat (segTest seg c.2))

/-- `linear_utility_from_spec` with a dictionary for `p_col`, `general.py:125-133` (`none`: no `segment_id`, `ValueError`).  The
keys of a dictionary are distinct and in the order of insertion. -/
noncomputable def segUtility (fm : Fmt) (ignore : List Tok → Bool) (rows : List SpecRow) (cols : List (String × Num)) :
    Option String → Option (Except Exc Obj)
  | none => none
  | some seg => some (sumObjs fm (.num zeroNum) (cols.map (segPart fm ignore rows seg)))

/-- `LinearFunction_C(value)` as done when the value is assigned to `utility_ca` or is in a dictionary assigned to `utility_co`,
`larch/model/linear.pyx:774-783, 608-609, 1340-1341`: 0 gives no terms, a component one term (`none`: raises). -/
noncomputable def toFunc : Obj → Option (List Comp)
  | .num n => if n.val = 0 then some [] else none
  | .comp c => some [c]
  | .func l => some l
  | _ => none

/-- `utils[altcode] = ...` on a dictionary. -/
def setKey {α : Type} (d : List (Int × α)) (k : Int) (v : α) : List (Int × α) :=
  if k ∈ d.map Prod.fst then d.map (fun e => if e.1 = k then (k, v) else e) else d ++ [(k, v)]

/-- `dict_of_linear_utility_from_spec`, `general.py:168-173`. -/
noncomputable def dictUtility (fm : Fmt) (ignore : List Tok → Bool) (rows : List SpecRow) (cols : List (String × Int)) :
    List (Int × Except Exc Obj) :=
  cols.foldl (fun d c => setKey d c.2 (utility fm ignore c.1 rows)) []

end Larch.SpecUtil
