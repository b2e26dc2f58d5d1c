import Mathlib.Data.List.Sort
import Mathlib.Data.List.Dedup
import Mathlib.Data.String.Basic

/-!
# Data preparation for ActivitySim models (`larch/util/activitysim/general.py`, `auto_ownership.py`)

Cells of a table read from a file are missing, a number or a text.  `none` as a result is an exception.
-/

namespace Larch.DataPrep

/-- A cell of a table. -/
inductive Cell (K : Type) where
  | missing
  | num (k : K)
  | text (s : String)
deriving DecidableEq

variable {K L : Type}

/-! ## `cv_to_ca` -/

/-- A table with one row per chooser and variable, and one column per alternative. -/
structure Wide (L K : Type) where
  cols : List L
  rows : List ((L × String) × List (Cell K))

/-- A cell with its three labels. -/
structure Tall (A K : Type) where
  case : A
  var : String
  alt : A
  cell : Cell K

/-- `alt_values.stack()`, line 45: row by row, without missing cells. -/
def stack [DecidableEq K] (w : Wide L K) : List (Tall L K) :=
  w.rows.flatMap (fun r => ((w.cols.zip r.2).filter (fun p => decide (p.2 ≠ Cell.missing))).map (fun p => ⟨r.1.1, r.1.2, p.1, p.2⟩))

/-- Lines 55-58: `astype(int)` of the labels of chooser and alternative; `toInt` is the conversion of one label, which may raise. -/
def intLabels (toInt : L → Option Int) (t : Tall L K) : Option (Tall Int K) :=
  (toInt t.case).bind (fun c => (toInt t.alt).map (fun a => ⟨c, t.var, a, t.cell⟩))

/-- Lines 60-66: `"False"` and `"True"` become 0 and 1, then `astype(float64)`; `parse` is the conversion of any other text, which may raise. -/
def toNum [Zero K] [One K] (parse : String → Option K) (c : Cell K) : Option K :=
  match c with
  | .missing => none
  | .num k => some k
  | .text s => if s = "False" then some 0 else if s = "True" then some 1 else parse s

/-- A cell after conversion. -/
structure Entry (K : Type) where
  case : Int
  var : String
  alt : Int
  val : K

/-- Lines 53-66 for one cell. -/
def entry [Zero K] [One K] (toInt : L → Option Int) (parse : String → Option K) (t : Tall L K) : Option (Entry K) :=
  (intLabels toInt t).bind (fun i => (toNum parse i.cell).map (fun k => ⟨i.case, i.var, i.alt, k⟩))

/-- All entries, or the exception of the first that cannot be converted. -/
def entries [Zero K] [One K] [DecidableEq K] (toInt : L → Option Int) (parse : String → Option K) (w : Wide L K) : Option (List (Entry K)) :=
  (stack w).mapM (entry toInt parse)

/-- A frame with one row per chooser and alternative. -/
structure FrameCa (K : Type) where
  names : List String
  rows : List ((Int × Int) × (String → Option K))

/-- `unstack(1)`, lines 69-72: labels of rows and columns sorted; repeated labels raise. -/
def unstack (es : List (Entry K)) : Option (FrameCa K) :=
  if (es.map (fun e => (e.case, e.var, e.alt))).Nodup then
    some ⟨(es.map Entry.var).dedup.insertionSort (· ≤ ·),
      ((es.map (fun e => (e.case, e.alt))).dedup.insertionSort (fun a b => a.1 < b.1 ∨ a.1 = b.1 ∧ a.2 ≤ b.2)).map (fun l =>
        (l, fun v => (es.find? (fun e => decide (e.case = l.1 ∧ e.alt = l.2 ∧ e.var = v))).map Entry.val))⟩
  else none

/-- `cv_to_ca(alt_values)`, lines 20-74, with the default `dtype`. -/
def cvToCa [Zero K] [One K] [DecidableEq K] (toInt : L → Option Int) (parse : String → Option K) (w : Wide L K) : Option (FrameCa K) :=
  (entries toInt parse w).bind unstack

/-- `prevent_overlapping_column_names`, lines 77-91: the new name of a column of the idca data. -/
def overlapName (co : List String) (s : String) : String := if co.contains s then s ++ "_ca" else s

/-! ## Choosers -/

/-- `str.replace("'", "")` of one name (`remove_apostrophes`, lines 354-374). -/
def stripQuotes (s : String) : String := String.ofList (s.toList.filter (fun c => c != '\''))

/-- `fillna(0)` for one cell (line 405). -/
def fill [Zero K] (c : Cell K) : Cell K :=
  match c with
  | .missing => .num 0
  | c => c

/-- A table of choosers: names of the columns, and the cells of each row. -/
structure Table (K : Type) where
  cols : List String
  rows : List (Int × List (Cell K))

/-- `values[col]` for one row: the cell below the (only) column of this name. -/
def cellOf (cols : List String) (r : List (Cell K)) (name : String) : Option (Cell K) := (cols.zip r).lookup name

/-- `.isin(alt_names)` for one cell, when the alternatives have names. -/
def isName (alts : List String) (c : Cell K) : Bool :=
  match c with
  | .text s => alts.contains s
  | _ => false

/-- The name in a cell. -/
def textOf (c : Cell K) : Option String :=
  match c with
  | .text s => some s
  | _ => none

/-- `clean_values(values, alt_names, choice_col, alt_names_to_codes, choice_code)`, lines 377-413: the rows kept, each with its code.  A choice column that is
not there, or is there twice after the removal of apostrophes, is an exception. -/
def cleanValues [Zero K] (t : Table K) (alts : List String) (choice : String) (codes : String → Option Int) :
    Option (List (Int × List (Cell K) × Option Int)) :=
  if (t.cols.map stripQuotes).count choice = 1 then
    some (t.rows.filterMap (fun r =>
      let cells := r.2.map fill
      match cellOf (t.cols.map stripQuotes) cells choice with
      | none => none
      | some c => if isName alts c then some (r.1, cells, (textOf c).bind codes) else none))
  else none

/-- `alt_names` and `alt_names_to_codes` of `simple_simulate_data`, lines 448-450: the names of the columns of the spec without apostrophes, numbered from 1. -/
def altNames (specCols : List String) : List String := (specCols.map stripQuotes).drop 3

def altCodes (specCols : List String) (s : String) : Option Int :=
  (((altNames specCols).zipIdx 1).reverse.lookup s).map (fun (n : Nat) => (n : Int))

/-- The choosers kept by `auto_ownership_model`, lines 37-41 of `auto_ownership.py`: `fillna(0)`, then the observed choice is not negative.  The choice is a number or
missing. -/
def autoChoosers (rows : List (Int × Option Int)) : List (Int × Int) :=
  (rows.map (fun r => (r.1, r.2.getD 0))).filter (fun r => decide (0 ≤ r.2))

end Larch.DataPrep
