import Mathlib.Data.List.Basic

/-!
# Reading tables with spanning cells (`larch/util/html_table_to_txt.py:13-110`)

A table is the list of its rows, a row the list of its cells (`td` and `th`, in order); finding the tags and the text of a cell is
BeautifulSoup's work and not modelled.  Spans are natural numbers (`int` of the attribute, 1 without it).
-/

namespace Larch.HtmlTable

/-- A cell: its text, `colspan` and `rowspan`. -/
structure Cell where
  text : String
  colspan : Nat
  rowspan : Nat
deriving DecidableEq

/-- `n_rows`, lines 24-28: blank rows do not count. -/
def nRows (t : List (List Cell)) : Nat := (t.filter (fun r => !r.isEmpty)).length

/-- `n_cols`, lines 29-30: the largest number of cells (not of columns) in a row. -/
def nCols (t : List (List Cell)) : Nat := (t.map List.length).foldl max 0

/-- `while skip_index[c] > 0: c += 1`, lines 81-83, from the rest of `skip_index`: `none` for the `IndexError`. -/
def seekFrom : List Nat → Nat → Option Nat
  | [], _ => none
  | s :: rest, c => if 0 < s then seekFrom rest (c + 1) else some c

/-- The column of a cell: the search from column `c`, lines 81-83. -/
def seek (skip : List Nat) (c : Nat) : Option Nat := seekFrom (skip.drop c) c

/-- The loop over the cells of a row, lines 57-99: the columns of the cells, and `this_skip_index` afterwards.  `skip_index` does not
change inside a row. -/
def placeCells (skip : List Nat) : Nat → List Cell → List Nat → Option (List Nat × List Nat)
  | _, [], this => some ([], this)
  | c, x :: rest, this =>
    (seek skip c).bind (fun p =>
      (placeCells skip (p + x.colspan) rest (if 1 < x.rowspan then this.set p x.rowspan else this)).map
        (fun o => (p :: o.1, o.2)))

/-- `skip_index = [i - 1 if i > 0 else i for i in this_skip_index]`, line 105. -/
def lessOne (l : List Nat) : List Nat := l.map (fun i => i - 1)

/-- The loop over the rows, lines 41-105: the columns of the cells of every row.  `this` is `this_skip_index` of the row before; a blank row
leaves it as it is but counts as a row, so that `df.iat[row_counter, …]` raises for the rows after it if it makes the number reach
`n_rows` (`none`). -/
def placeRows (n : Nat) : Nat → List Nat → List (List Cell) → Option (List (List Nat))
  | _, _, [] => some []
  | r, this, [] :: rows => (placeRows n (r + 1) this rows).map (fun o => [] :: o)
  | r, this, (x :: xs) :: rows =>
    (placeCells (lessOne this) 0 (x :: xs) (lessOne this)).bind (fun o =>
      if r < n then (placeRows n (r + 1) o.2 rows).map (fun q => o.1 :: q) else none)

/-- The columns of all cells, lines 21-105. -/
def columnsOf (t : List (List Cell)) : Option (List (List Nat)) :=
  placeRows (nRows t) 0 (List.replicate (nCols t) 0) t

/-- The text in a row at a column: the last cell put there (`df.iat[row, col] = cell_data`, line 94). -/
def textAt (cells : List Cell) (cols : List Nat) (c : Nat) : Option String :=
  (((cols.zip cells).reverse).find? (fun e => e.1 = c)).map (fun e => e.2.text)

/-- The table read: `cell r c` is the text, `none` where nothing was put (missing). -/
structure Frame where
  rows : Nat
  cols : Nat
  cell : Nat → Nat → Option String

/-- `html_tables(raw).read()` for one table, lines 21-108; `none` for the `IndexError`s. -/
def readTable (t : List (List Cell)) : Option Frame :=
  (columnsOf t).map (fun cols => ⟨nRows t, nCols t, fun r c =>
    (t[r]?).bind (fun cells => (cols[r]?).bind (fun ps => textAt cells ps c))⟩)

end Larch.HtmlTable
