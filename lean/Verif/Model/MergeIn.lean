import Mathlib.Data.List.Basic

/-!
# Merging a table into a pod (`merge_external_data`)

`larch/data_services/h5/h5pod/idco.py:122-277` and its copy for idce pods, `idce.py:109-258`, with the other data given as a pandas
frame, and `add_array` (`generic.py:502-609`) and `delete_array` as far as they matter here.  Values are of any type, with one
value for "missing" (pandas matches missing keys with each other).  Names of keys are names of variables of the pod (expressions are
not modelled), no name has a slash in it or is reserved, and suffixed names do not collide.
-/

namespace Larch.MergeIn

variable {V : Type} [DecidableEq V]

/-- A row of the other table: its index label and its cells by column. -/
structure Row (V : Type) where
  label : List V
  cell : String → V

/-- The other table. -/
structure Table (V : Type) where
  names : List String
  rows : List (Row V)

/-- A pod: its variables, and its length when known. -/
structure Pod (V : Type) where
  vars : List (String × List V)
  size : Option Nat

/-- Arguments.  `selfOn` is `none` for `None`; `otherOn` is `none` when `other_on_index` is set; `names` maps names in the other
table to names in the pod. -/
structure Args where
  selfOn : Option (List String)
  otherOn : Option (List String)
  suffix : String := "_copy"
  names : Option (List (String × String)) := none
  overwrite : Bool := false
  dedupe : Bool := false

inductive Exc where
  | incompatibleShape
  | nodeError
  | nameError
deriving DecidableEq

/-- `add_array(name, arr)`, `generic.py:534-565`; the shape of the pod is that of its first array. -/
def addArray (p : Pod V) (name : String) (arr : List V) : Except Exc (Pod V) :=
  if p.size ≠ none ∧ p.size ≠ some arr.length then .error .incompatibleShape
  else if name ∈ p.vars.map Prod.fst then .error .nodeError
  else .ok { vars := p.vars ++ [(name, arr)], size := some arr.length }

/-- `drop_duplicates(subset, keep='first')`: rows whose key was seen before are dropped. -/
def firstOnly {κ : Type} [DecidableEq κ] (key : Row V → κ) : List κ → List (Row V) → List (Row V)
  | _, [] => []
  | seen, r :: rs => if key r ∈ seen then firstOnly key seen rs else r :: firstOnly key (key r :: seen) rs

/-- The other table after `other_dedupe`, `idco.py:213-221`: by the columns of `other_on`, or by all columns (not the index) when
`other_on_index` is set.  It is done in place: this is also the table of the caller afterwards. -/
def deduped (a : Args) (t : Table V) : Table V :=
  if a.dedupe then
    { t with rows := firstOnly (fun r => ((a.otherOn.getD t.names).map r.cell)) [] t.rows }
  else t

/-- The key of a row of the other table. -/
def rowKey (a : Args) (r : Row V) : List V :=
  match a.otherOn with
  | some on => on.map r.cell
  | none => r.label

/-- The key of case `i` of the pod. -/
def caseKey (na : V) (p : Pod V) (on : List String) (i : Nat) : List V :=
  on.map (fun c => ((p.vars.lookup c).bind (fun arr => arr[i]?)).getD na)

/-- `pandas.merge(.., how='left')`, `idco.py:223-232`: which row of the other table each row of the result takes its cells from: all that match
the case, in their order, or none. -/
def matched (na : V) (a : Args) (p : Pod V) (on : List String) (t : Table V) (i : Nat) : List (Option (Row V)) :=
  if (t.rows.filter (fun r => rowKey a r = caseKey na p on i)).isEmpty then [none]
  else (t.rows.filter (fun r => rowKey a r = caseKey na p on i)).map some

/-- The rows of `new_df`, `idco.py:223-234`. -/
def resultRows (na : V) (a : Args) (p : Pod V) (t : Table V) : List (Option (Row V)) :=
  match a.selfOn with
  | none => t.rows.map some
  | some on => (List.range (p.size.getD 0)).flatMap (matched na a p on t)

/-- The columns of `new_df` that come from the other table: name in `new_df`, and name in the table.  Key columns of the same name
on both sides are merged into one, which is the pod's; other columns with the name of a key of the pod get the suffix. -/
def resultCols (a : Args) (t : Table V) : List (String × String) :=
  match a.selfOn with
  | none => t.names.map (fun c => (c, c))
  | some on =>
    (t.names.filter (fun c => (c, c) ∉ on.zip (a.otherOn.getD []))).map (fun c => (if c ∈ on then c ++ a.suffix else c, c))

/-- The name a column is imported under, `idco.py:238, 251`; `none` when it is not. -/
def importAs (a : Args) (p : Pod V) (col : String) : Option String :=
  match a.names with
  | none => if col ∈ p.vars.map Prod.fst then none else some col
  | some m => (m.lookup col).bind (fun new => if new ∈ p.vars.map Prod.fst ∧ a.overwrite = false then none else some new)

/-- The values of a column of `new_df`. -/
def colValues (na : V) (rows : List (Option (Row V))) (c : String) : List V :=
  rows.map (fun o => (o.map (fun r => r.cell c)).getD na)

/-- The loop over the columns, `idco.py:237-274`: the pod afterwards, and the exception. -/
def importCols (na : V) (a : Args) (rows : List (Option (Row V))) : List (String × String) → Pod V → Pod V × Option Exc
  | [], p => (p, none)
  | (col, src) :: r, p =>
    match importAs a p col with
    | none => importCols na a rows r p
    | some new =>
      match addArray p new (colValues na rows src) with
      | .ok p' => importCols na a rows r p'
      | .error e => (p, some e)

/-- `merge_external_data(other, ...)` with a frame, `idco.py:122-277`.  (The key columns of the pod are also among the columns of `new_df`; they are
in the pod, and are only imported with `names`, which is not modelled.) -/
def mergeIn (na : V) (a : Args) (p : Pod V) (t : Table V) : Pod V × Option Exc :=
  if (a.selfOn.getD []).any (fun c => c ∉ p.vars.map Prod.fst) then (p, some .nameError)
  else importCols na a (resultRows na a p (deduped a t)) (resultCols a t) p

end Larch.MergeIn
