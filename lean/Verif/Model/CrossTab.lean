import Mathlib.Data.Rat.Defs
import Mathlib.Algebra.Order.Ring.Rat
import Mathlib.Algebra.BigOperators.Group.List.Basic

/-!
# A table of counts and shares (`larch/util/dataframe.py`, 312-431)

The data are the pairs of a row category and a column category of the records that have both (records without one, as those outside of the bins of
`pandas.cut`, do not count; `pandas.pivot_table` with `aggfunc=len`).  Labels are the texts of the categories (line 364).  Numbers are exact; rounding
to the digits shown, styles, titles and the display in a notebook are not modelled.
-/

namespace Larch.CrossTab

/-- A frame by columns: each with its label, and its values in the order of the rows. -/
abbrev Grid := List (String × List ℚ)

/-- `aggfunc=len` (lines 356-362), and zero where there is none. -/
def count (d : List (String × String)) (r c : String) : ℚ := ((d.filter (fun e => e.1 = r ∧ e.2 = c)).length : ℚ)

/-- Categories without records have no row or column. -/
def present (cats : List String) (used : List String) : List String := cats.filter (fun c => c ∈ used)

/-- Lines 356-364. -/
def pivot (rows cols : List String) (d : List (String × String)) : Grid :=
  cols.map (fun c => (c, rows.map (fun r => count d r c)))

/-- `result1.loc[:, name] = values`: a column of that name is overwritten. -/
def putCol (g : Grid) (n : String) (v : List ℚ) : Grid :=
  if n ∈ g.map Prod.fst then g.map (fun e => if e.1 = n then (n, v) else e) else g ++ [(n, v)]

/-- `result1.sum(1)`. -/
def rowSums (nrows : Nat) (g : Grid) : List ℚ := (List.range nrows).map (fun i => (g.map (fun e => e.2.getD i 0)).sum)

/-- A value as it is shown: a number, a percentage, or nothing. -/
inductive Shown
  | number (x : ℚ)
  | percent (x : ℚ)
  | blank
deriving DecidableEq

/-- `pct_or_thousands` (lines 380-384). -/
def pctOrThousands (x : ℚ) : Shown := if x < 0 then .percent (-x) else .number x

/-- `result1 / result1.sum(0)` (line 369); `0/0` is missing. -/
def shareOf (col : List ℚ) : List (Option ℚ) := if col.sum = 0 then col.map (fun _ => none) else col.map (fun x => some (x / col.sum))

/-- `hide_nan_else_pct` (lines 386-390).  (Not stacked, a missing share is shown as `nan%`, line 407; that is `blank` here too.) -/
def hideNan : Option ℚ → Shown
  | none => .blank
  | some x => .percent x

/-- A column of the table: the values of the categories, and of the rows `TOTAL` and `% of TOT`. -/
structure Column where
  label : String
  cells : List Shown
  total : Shown
  ofTotal : Shown
deriving DecidableEq

structure Table where
  rows : List String
  counts : List Column
  shares : List Column
deriving DecidableEq

/-- Lines 366-367. -/
def withTotals (rowtotals : Bool) (nrows : Nat) (g : Grid) : Grid := if rowtotals then putCol g "TOTAL" (rowSums nrows g) else g

/-- `result1.loc['TOTAL', :].sum()` (lines 375, 378). -/
def sumOfTotals (g : Grid) : ℚ := (g.map (fun e => e.2.sum)).sum

/-- The row `% of TOT` before it is shown (lines 373-378): negative, so that `pct_or_thousands` knows it. -/
def pctRow (rowtotals : Bool) (g : Grid) (col : List ℚ) : ℚ :=
  if rowtotals then -col.sum * 2 / sumOfTotals g else -col.sum / sumOfTotals g

/-- How the counts are shown: lines 399-402 if stacked, `"{:,.0f}"` else (line 406). -/
def showCount (stack : Bool) (x : ℚ) : Shown := if stack then pctOrThousands x else .number x

/-- `counts_and_shares` (lines 312-431); none if `TOTAL` or `% of TOT` is a category of the rows (`add_categories` raises, line 334). -/
def countsAndShares (rowCats colCats : List String) (d : List (String × String)) (rowtotals stack : Bool) : Option Table :=
  if "TOTAL" ∈ rowCats ∨ "% of TOT" ∈ rowCats then none
  else
    let rows := present rowCats (d.map Prod.fst)
    let g := withTotals rowtotals rows.length (pivot rows (present colCats (d.map Prod.snd)) d)
    some { rows := rows,
           counts := g.map (fun e => ⟨e.1, e.2.map (showCount stack), showCount stack e.2.sum, showCount stack (pctRow rowtotals g e.2)⟩),
           shares := g.map (fun e => ⟨e.1, (shareOf e.2).map hideNan, .blank, .blank⟩) }

end Larch.CrossTab
