import Verif.Model.Dbf
import Mathlib.Data.Nat.Digits.Defs
import Mathlib.Data.List.Forall2

/-!
# What a DBF file holds

The layout of dBASE III files, from which the reader is checked: a header of 32 bytes, 32 bytes for each field, a closing byte 13; then the
records, each with a flag (32, or 42 when it is deleted) and its fields one after the other.
-/

namespace Larch.DbfSpec

open Larch.Dbf (Cell)

/-- A field: its name, type letter, length, decimals, and reserved bytes. -/
structure Col where
  name : List Nat
  typ : Nat
  len : Nat
  dec : Nat
  res1 : List Nat
  res2 : List Nat

/-- The contents of a file: the date, reserved bytes, the fields and the records (flag and the text of each field). -/
structure Table where
  date : List Nat
  res : List Nat
  cols : List Col
  rows : List (Nat × List (List Nat))

def le16 (n : Nat) : List Nat := [n % 256, n / 256]

def le32 (n : Nat) : List Nat := [n % 256, n / 256 % 256, n / 65536 % 256, n / 16777216]

def colBytes (c : Col) : List Nat :=
  (c.name ++ List.replicate (11 - c.name.length) 0) ++ ([c.typ] ++ c.res1 ++ [c.len, c.dec] ++ c.res2)

/-- Length of a record. -/
def recordLength (cols : List Col) : Nat := 1 + (cols.map Col.len).sum

def rowBytes (r : Nat × List (List Nat)) : List Nat := r.1 :: r.2.flatten

def head (t : Table) : List Nat :=
  [3] ++ t.date ++ le32 t.rows.length ++ le16 (33 + 32 * t.cols.length) ++ le16 (recordLength t.cols) ++ t.res

/-- The bytes of the file. -/
def fileOf (t : Table) : List Nat := head t ++ (t.cols.map colBytes).flatten ++ [13] ++ (t.rows.map rowBytes).flatten ++ [26]

/-- A field as dBASE III allows it, with a name of at most 10 ASCII characters and a length of at most 127. -/
structure ColOk (c : Col) : Prop where
  short : c.name.length ≤ 10
  ascii : ∀ b ∈ c.name, 0 < b ∧ b ≤ 127
  typ : c.typ ≤ 127
  len : c.len ≤ 127
  dec : c.dec ≤ 127
  res1 : c.res1.length = 4
  res2 : c.res2.length = 14

structure TableOk (t : Table) : Prop where
  date : t.date.length = 3
  res : t.res.length = 20
  cols : ∀ c ∈ t.cols, ColOk c
  rows : ∀ r ∈ t.rows, List.Forall₂ (fun (c : Col) (cell : List Nat) => cell.length = c.len) t.cols r.2
  few : t.cols.length ≤ 256
  record : recordLength t.cols < 65536
  count : t.rows.length < 2 ^ 31

/-- The decimal text of a number. -/
def natText (n : Nat) : List Nat := if n = 0 then [48] else (Nat.digits 10 n).reverse.map (fun d => 48 + d)

def intText (i : Int) : List Nat := if i < 0 then 45 :: natText i.natAbs else natText i.natAbs

/-- The value a field shows: integers are right-aligned decimal numbers, texts are padded with spaces, and dates, truth values and so
on are no columns. -/
inductive Shows {F : Type} (atof : List Nat → F) : Col → List Nat → Option (Cell F) → Prop
  | int (c : Col) (k : Nat) (i : Int) : c.typ = 78 → c.dec = 0 → -(2 ^ 63) ≤ i → i < 2 ^ 63 →
      Shows atof c (List.replicate k 32 ++ intText i) (some (.int i))
  | dbl (c : Col) (text : List Nat) : (c.typ = 78 ∧ c.dec ≠ 0 ∨ c.typ = 70) → 0 ∉ text → Shows atof c text (some (.dbl (atof text)))
  | str (c : Col) (a b : Nat) (s : List Nat) : c.typ = 67 → (∀ x ∈ s, x ≠ 0) → (∀ x, s.head? = some x → 32 < x) →
      (∀ x, s.getLast? = some x → 32 < x) →
      Shows atof c (List.replicate a 32 ++ s ++ List.replicate b 32) (some (.str s))
  | other (c : Col) (cell : List Nat) : c.typ ≠ 78 → c.typ ≠ 70 → c.typ ≠ 67 → Shows atof c cell none

/-- The values of a record. -/
def RowShows {F : Type} (atof : List Nat → F) (cols : List Col) (row : Nat × List (List Nat)) (vals : List (Option (Cell F))) : Prop :=
  List.Forall₂ (fun (p : Col × List Nat) v => Shows atof p.1 p.2 v) (cols.zip row.2) vals

/-- Whether a field becomes a column. -/
def readable (c : Col) : Bool := c.typ == 78 || c.typ == 70 || c.typ == 67

/-- The last row asked for. -/
def lastRow (n : Nat) (stop : Int) : Nat := if stop < 0 ∨ (n : Int) < stop then n else stop.toNat

end Larch.DbfSpec
