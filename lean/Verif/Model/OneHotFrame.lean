import Mathlib.Order.Defs.LinearOrder
import Mathlib.Data.List.Sort
import Mathlib.Data.List.Dedup

/-!
# One-hot columns of frames (`larch/util/data_expansion.py:43-142`, the first part also in `larch/dataframes.pyx:183-238`)

A frame is a list of columns with distinct names; the cells are of a linearly ordered type with a zero and a one (numbers whatever their type).  The text of a
column name, `f'{s.name}=={value}'`, is a parameter.
-/

namespace Larch.OneHotFrame

variable {V : Type} [LinearOrder V] [Zero V] [One V]

/-- Columns of a frame. -/
abbrev Cols (V : Type) := List (String × List V)

/-- What can be raised. -/
inductive Fault
  | key
  | attribute
  | value
  deriving DecidableEq

/-- What is given as `s`. -/
inductive Given (V : Type)
  | series (name : String) (values : List V)
  | frame (cols : Cols V)

/-- `numpy.unique(arr)`. -/
def distinct (vals : List V) : List V := vals.dedup.insertionSort (· ≤ ·)

/-- `to_categorical` and the new labels, lines 43-54, 94-95: a column of zeros and ones for each distinct value; no values at all raise `ValueError` (`numpy.max`). -/
def hotCols (fmt : String → V → String) (name : String) (vals : List V) : Except Fault (Cols V) :=
  if vals = [] then .error .value else .ok ((distinct vals).map (fun c => (fmt name c, vals.map (fun v => if v = c then 1 else 0))))

/-- `input[columns] = frame`: existing columns are replaced, others are added. -/
def assign (cols new : Cols V) : Cols V :=
  cols.map (fun c => (c.1, (new.lookup c.1).getD c.2)) ++ new.filter (fun c => decide (c.1 ∉ cols.map Prod.fst))

/-- What `categorical_expansion` leaves: what is returned, and the columns of the frame given. -/
structure Left (V : Type) where
  returned : Option (Cols V)
  frame : Option (Cols V)
  deriving DecidableEq

/-- `categorical_expansion`, lines 57-102.  A frame with one column fails on line 88: `s` is already the column, and has no `columns`.  Without a column name a
frame of several columns is expanded as a whole: the codes of all cells do not fit the index (`ValueError`).  Line 99 does not drop anything: `drop` without
`inplace` gives a new frame that is not kept. -/
def expansion (fmt : String → V → String) (s : Given V) (column : Option String) (inplace drop : Bool) : Except Fault (Left V) :=
  match s with
  | .series name vals => (hotCols fmt name vals).map (fun h => ⟨some h, none⟩)
  | .frame cols =>
    if (column.any (fun c => decide (c ∉ cols.map Prod.fst))) = true then .error .key
    else if cols.length = 1 then .error .attribute
    else match column with
      | none => .error .value
      | some c => (hotCols fmt c ((cols.lookup c).getD [])).map (fun h =>
          if inplace then (if drop then ⟨none, some (assign cols h)⟩ else ⟨none, some (assign cols h)⟩) else ⟨some h, some cols⟩)

/-- `categorical_compression`, lines 106-140, without `inplace`: for each row the last of the columns with a one; `none` is NaN.  Unknown columns raise `KeyError`,
repeated ones `ValueError` (the categories must be unique). -/
def compression (cols : Cols V) (nRows : Nat) (columns : Option (List String)) : Except Fault (List (Option String)) :=
  let names := columns.getD (cols.map Prod.fst)
  if names.any (fun c => decide (c ∉ cols.map Prod.fst)) then .error .key
  else if ¬ names.Nodup then .error .value
  else .ok ((List.range nRows).map (fun i => names.foldl (fun r c => if ((cols.lookup c).getD [])[i]? = some 1 then some c else r) none))

end Larch.OneHotFrame
