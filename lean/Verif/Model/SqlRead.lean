import Mathlib.Data.List.Basic
import Mathlib.Algebra.Group.Defs

/-!
# Reading tables out of SQLite

`larch/data_services/sqlite/sqlite_arrays.pyx`: `_sqlite_array_2d_float64` (144-265), `_rip_array_idco` (271-282), `SQLitePodCO` (286-317), and
`Connection.read_data` (`larch/data_services/sqlite/__init__.py:11-16`).  What SQLite does: a statement gives its rows in turn and then `SQLITE_DONE`, and
is reset when it is stepped again after that; `sqlite3_column_double` and `sqlite3_column_int64` give zero for `NULL`, and convert other
values as `Conv` says.  Numbers are of any type.  Errors while stepping are not modelled, and the rows of a query are the same each time it is run.
-/

namespace Larch.SqlRead

variable {K : Type} [Zero K]

/-- A value in a table. -/
inductive Cell (K : Type) where
  | null
  | int (i : Int)
  | real (x : K)
  | text (s : String)
deriving DecidableEq

/-- How SQLite converts integers to doubles, doubles to integers, and text to both. -/
structure Conv (K : Type) where
  ofInt : Int → K
  trunc : K → Int
  textReal : String → K
  textInt : String → Int

/-- `sqlite3_column_double`. -/
def asDouble (c : Conv K) : Cell K → K
  | .null => 0
  | .int i => c.ofInt i
  | .real x => x
  | .text s => c.textReal s

/-- `sqlite3_column_int64`. -/
def asInt (c : Conv K) : Cell K → Int
  | .null => 0
  | .int i => i
  | .real x => c.trunc x
  | .text s => c.textInt s

/-- The outcome of a query: its columns' names and its rows. -/
structure Query (K : Type) where
  names : List String
  rows : List (List (Cell K))

/-- What `sqlite3_step` gives for a statement that has given `at` rows since it was started or reset: a row or `SQLITE_DONE`, and the new position. -/
def stepStmt (rows : List (List (Cell K))) (pos : Nat) : Option (List (Cell K)) × Nat :=
  match rows[pos]? with
  | some r => (some r, pos + 1)
  | none => (none, 0)

/-- The number of the index column, lines 206-211: the last of that name. -/
def indexNumber (names : List String) (index : Option String) : Option Nat :=
  match index with
  | none => none
  | some x => ((List.range names.length).filter (fun i => names[i]? = some x)).getLast?

/-- The names of the columns of the result, lines 206-211: those of the index left out. -/
def columnNames (names : List String) (index : Option String) : List String :=
  match index with
  | none => names
  | some x => names.filter (fun n => n ≠ x)

/-- One row of the result, lines 239-252: the index column is not in it. -/
def rowValues (c : Conv K) (k : Option Nat) (r : List (Cell K)) : List K :=
  match k with
  | none => r.map (asDouble c)
  | some i => (r.eraseIdx i).map (asDouble c)

/-- The label of a row, line 244. -/
def rowLabel (c : Conv K) (k : Option Nat) (r : List (Cell K)) : Int :=
  match k.bind (fun i => r[i]?) with
  | some x => asInt c x
  | none => 0

/-- What has been read: rows and labels so far, the position of the statement, whether the last step was `SQLITE_DONE`, and the warnings of the
underfilled array (the numbers of rows they report). -/
structure State (K : Type) where
  rows : List (List K) := []
  labels : List Int := []
  pos : Nat := 0
  done : Bool := false
  warned : List Nat := []

/-- One turn of the loop over the rows, lines 231-252; `width` is the number of columns of the result. -/
def readRow (c : Conv K) (q : Query K) (k : Option Nat) (width : Nat) (s : State K) (rownum : Nat) : State K :=
  match stepStmt q.rows s.pos with
  | (some r, p) =>
    { s with rows := s.rows ++ [rowValues c k r], labels := s.labels ++ [rowLabel c k r], pos := p, done := false }
  | (none, p) =>
    { rows := s.rows ++ [List.replicate width 0], labels := s.labels ++ [0], pos := p, done := true, warned := s.warned ++ [rownum] }

/-- The state after the loop. -/
def readRows (c : Conv K) (q : Query K) (k : Option Nat) (width n : Nat) : State K :=
  (List.range n).foldl (readRow c q k width) {}

/-- The warning of an overflowed array, lines 254-261. -/
def overflowed (q : Query K) (s : State K) : Bool :=
  if s.done then false else (stepStmt q.rows s.pos).1.isSome

inductive Exc where
  | typeError
  | valueError
  | indexError
  | assertion
deriving DecidableEq

/-- A data frame with what was warned of. -/
structure Frame (K : Type) where
  names : List String
  labels : List Int
  rows : List (List K)
  underfilled : List Nat
  overflow : Bool
deriving DecidableEq

/-- The labels of the frame: the index column, or the numbers of the rows. -/
def frameLabels (k : Option Nat) (s : State K) : List Int :=
  match k with
  | some _ => s.labels
  | none => (List.range s.rows.length).map (fun i => (i : Int))

/-- The number of columns of the array, lines 214-228. -/
def width (q : Query K) (index : Option String) : Nat :=
  match indexNumber q.names index with
  | some _ => q.names.length - 1
  | none => q.names.length

/-- `_sqlite_array_2d_float64(connection, query, n_rows, out, index_col)`, lines 144-265; `nRows` is the argument if it was given and positive, and the number of
rows is counted otherwise (176-179).  With `out`, `tuple(n_rows, n_cols)` raises (219, 226). -/
def readArray (c : Conv K) (q : Query K) (nRows : Option Nat) (out : Bool) (index : Option String) : Except Exc (Frame K) :=
  if out then .error .typeError
  else if (columnNames q.names index).length ≠ width q index then .error .valueError
  else .ok { names := columnNames q.names index
             labels := frameLabels (indexNumber q.names index) (readRows c q (indexNumber q.names index) (width q index) (nRows.getD q.rows.length))
             rows := (readRows c q (indexNumber q.names index) (width q index) (nRows.getD q.rows.length)).rows
             underfilled := (readRows c q (indexNumber q.names index) (width q index) (nRows.getD q.rows.length)).warned
             overflow := overflowed q (readRows c q (indexNumber q.names index) (width q index) (nRows.getD q.rows.length)) }

/-- `Connection.read_data(query, index_col=..)`, `__init__.py:11-16`, with the default `dtype`. -/
def readData (c : Conv K) (q : Query K) (index : Option String) : Except Exc (Frame K) := readArray c q none false index

/-! ### `SQLitePodCO` -/

/-- A cell as numpy takes it from Python: `none` for NaN (`NULL`); text cannot be taken. -/
def asFloat (c : Conv K) : Cell K → Except Exc (Option K)
  | .null => .ok none
  | .int i => .ok (some (c.ofInt i))
  | .real x => .ok (some x)
  | .text _ => .error .valueError

/-- The rows put into an array of `n` rows of zeros, `_rip_array_idco`, lines 271-282. -/
def ripRows (c : Conv K) (cols n : Nat) (rows : List (List (Cell K))) : Except Exc (List (List (Option K))) :=
  match rows.mapM (fun r => r.mapM (asFloat c)) with
  | .error e => .error e
  | .ok rs => if n < rs.length then .error .indexError else .ok (rs ++ List.replicate (n - rs.length) (List.replicate cols (some 0)))

/-- The argument `selector`. -/
inductive Sel where
  | all
  /-- `slice(start, stop)` with step one; `none` where it was left open. -/
  | slice (start stop : Option Nat)
  /-- An array of positions. -/
  | places (l : List Nat)
deriving DecidableEq

/-- The pod: the rows of its table in its order, and the number of rows it says. -/
structure PodCO (K : Type) where
  table : Query K
  nrows : Nat

/-- The pod as constructed: rows are counted unless a number other than zero is given, lines 288-297. -/
def makePod (table : Query K) (given : Nat) : PodCO K := { table := table, nrows := if given = 0 then table.rows.length else given }

/-- `get_array(vars, selector, out)`, lines 299-317, for all columns of the table; `out` tells whether an array was given (of the right shape). -/
def getArray (c : Conv K) (p : PodCO K) (sel : Sel) (out : Bool) : Except Exc (List (List (Option K))) :=
  match sel with
  | .all => if out then .error .typeError else ripRows c p.table.names.length p.nrows p.table.rows
  | .slice (some a) (some b) =>
    -- a negative `LIMIT` is no limit
    if out then .error .typeError
    else ripRows c p.table.names.length p.nrows (if b < a then p.table.rows.drop a else (p.table.rows.drop a).take (b - a))
  | .slice _ _ => .error .typeError
  | .places l =>
    match ripRows c p.table.names.length p.nrows p.table.rows with
    | .error e => .error e
    | .ok rs => if out then (if l.all (fun i => i < rs.length) then .ok (l.filterMap (fun i => rs[i]?)) else .error .indexError) else .error .typeError

end Larch.SqlRead
