import Mathlib.Algebra.Order.Field.Basic
import Mathlib.Data.Rat.Defs
import Mathlib.Algebra.Order.Field.Rat

/-!
# Reading text tables for a database (`larch/util/smartread.py`)

Headers are lists of characters; `lower` and `upper` change the letters of the English alphabet only (Python also changes others).
-/

namespace Larch.SmartRead

/-- `_sqlite_keywords`, lines 5-24. -/
def keywords : List String := [
  "ABORT", "ACTION", "ADD", "AFTER", "ALL", "ALTER", "ANALYZE", "AND", "AS", "ASC", "ATTACH", "AUTOINCREMENT", "BEFORE", "BEGIN", "BETWEEN",
  "BY", "CASCADE", "CASE", "CAST", "CHECK", "COLLATE", "COLUMN", "COMMIT", "CONFLICT", "CONSTRAINT", "CREATE", "CROSS", "CURRENT_DATE",
  "CURRENT_TIME", "CURRENT_TIMESTAMP", "DATABASE", "DEFAULT", "DEFERRABLE", "DEFERRED", "DELETE", "DESC", "DETACH", "DISTINCT", "DROP",
  "EACH", "ELSE", "END", "ESCAPE", "EXCEPT", "EXCLUSIVE", "EXISTS", "EXPLAIN", "FAIL", "FOR", "FOREIGN", "FROM", "FULL", "GLOB", "GROUP",
  "HAVING", "IF", "IGNORE", "IMMEDIATE", "IN", "INDEX", "INDEXED", "INITIALLY", "INNER", "INSERT", "INSTEAD", "INTERSECT", "INTO", "IS",
  "ISNULL", "JOIN", "KEY", "LEFT", "LIKE", "LIMIT", "MATCH", "NATURAL", "NO", "NOT", "NOTNULL", "NULL", "OF", "OFFSET", "ON", "OR", "ORDER",
  "OUTER", "PLAN", "PRAGMA", "PRIMARY", "QUERY", "RAISE", "REFERENCES", "REGEXP", "REINDEX", "RELEASE", "RENAME", "REPLACE", "RESTRICT",
  "RIGHT", "ROLLBACK", "ROW", "SAVEPOINT", "SELECT", "SET", "TABLE", "TEMP", "TEMPORARY", "THEN", "TO", "TRANSACTION", "TRIGGER", "UNION",
  "UNIQUE", "UPDATE", "USING", "VACUUM", "VALUES", "VIEW", "VIRTUAL", "WHEN", "WHERE"]

/-- `str.lower`. -/
def lower (h : List Char) : List Char := h.map Char.toLower

/-- `str.upper`. -/
def upper (h : List Char) : List Char := h.map Char.toUpper

/-- Lines 84-89 for one of the words: `h.lower() == word or h[1:].lower() == word`. -/
def addId (word : String) (h : List Char) : List Char :=
  if lower h = word.toList ∨ lower (h.drop 1) = word.toList then h ++ ['i', 'd'] else h

/-- Lines 90-92. -/
def addUnderscore (h : List Char) : List Char := if upper h ∈ keywords.map String.toList then h ++ ['_'] else h

/-- Lines 93-95. -/
def noDots (h : List Char) : List Char := h.map (fun c => if c = '.' then '_' else c)

/-- The column name before its type is split off: lines 84-95. -/
def cleaned (h : List Char) : List Char := noDots (addUnderscore (addId "group" (addId "case" h)))

/-- `interpret_header_name(h)`, lines 82-103. -/
def interpretHeader (h : List Char) : List Char :=
  match cleaned h with
  | [] => [' ']
  | c :: t => if c = '@' then t ++ " TEXT".toList else if c = '#' then t ++ " INTEGER".toList else (c :: t) ++ " NUMERIC".toList

/-- The loop of `bytesread`, lines 70-74, with `n` turns left: the number and the position of its unit. -/
def scaleBytes : Nat → ℚ → Nat → ℚ × Nat
  | 0, b, s => (b, s)
  | n + 1, b, s => if b > 1024 then scaleBytes n (b / 1024) (s + 1) else (b, s)

/-- What `tell()` does: gives the position, raises `io.UnsupportedOperation`, raises another error (`OSError` while lines of a text file are iterated over). -/
inductive Tell
  | pos (n : Nat)
  | unsupported
  | other

/-- What can be raised. -/
inductive Fault
  | zeroDivision
  | os
  deriving DecidableEq

/-- `percentread`, lines 53-60: a zero size raises `ZeroDivisionError` for a position; the inner `except` catches everything.  `left` is the attribute `_left`
(`none` if there is none). -/
def percentRead (t : Tell) (size : Nat) (left : Option Nat) : Except Fault ℚ :=
  match t with
  | .pos n => if size = 0 then .error .zeroDivision else .ok ((n : ℚ) / (size : ℚ) * 100)
  | .other => .error .os
  | .unsupported => match left with
    | none => .ok 0
    | some l => if size = 0 then .ok 0 else .ok (1 - (l : ℚ) / (size : ℚ) * 100)

/-- What `progress` shows: a percentage, a number of bytes with the position of its unit (before rounding to two decimals), an error text. -/
inductive Shown
  | percent (p : ℚ)
  | bytes (b : ℚ) (unit : Nat)
  | text
  deriving DecidableEq

/-- `bytesread`, lines 65-75. -/
def bytesRead (t : Tell) : Shown :=
  match t with
  | .pos n => .bytes (scaleBytes 4 n 0).1 (scaleBytes 4 n 0).2
  | _ => .text

/-- `progress`, lines 77-82. -/
def progress (t : Tell) (size : Nat) (left : Option Nat) : Except Fault Shown :=
  match percentRead t size left with
  | .error e => .error e
  | .ok p => if p > 0 ∧ p < 100 then .ok (.percent p) else .ok (bytesRead t)

/-- Lines 29-32: the size of a file compressed with gzip is that of its last four bytes (the true size modulo 2^32 if there is one member). -/
def gzSize (trueSize : Nat) : Nat := trueSize % 4294967296

end Larch.SmartRead
