import Mathlib.Data.List.Basic

/-!
# Workbooks (`larch/util/excel.py`, 31-45, 62-101, 255-505, 523-543)

What is written on each sheet, as intervals of rows; formats, widths of columns, links and the log are left out.  Pandas writes a frame in as many rows as it has, and a
row for each level of the columns when there is a header (one more when there are several levels); a picture covers `height` rows, `ceil(pixels / dpi * 72 / 15)`.
Sheets of the writer itself (`Contents`, `_log_`, `_metadata_`) are not written to by the user.
-/

namespace Larch.Workbook

/-- What is written: a heading, a table or picture (by its number in the order of additions), lines of a blurb. -/
inductive What where
  | heading (caption : String)
  | body (id : Nat)
  | blurb
deriving DecidableEq

/-- Rows `start` to `stop - 1` of a sheet are written to. -/
structure Mark where
  sheet : String
  start : Nat
  stop : Nat
  what : What
deriving DecidableEq

/-- The writer: the sheets by the names asked for, `sheet_startrow`, captions so far, the table of contents, what was written, and the number of additions. -/
structure Writer where
  sheets : List (String × String)
  startrow : List (String × Nat)
  tables : Nat
  figures : Nat
  toc : List (String × String × Nat)
  marks : List Mark
  added : Nat
deriving DecidableEq

/-- A content: frames (or styled frames) with a number of rows, levels of the columns, whether the index has a name; pictures; nested dicts, with the number of rows they
take; others, for which there is only a warning. -/
inductive Content where
  | frame (rows levels : Nat) (named header : Bool)
  | picture (height : Nat)
  | dict (rows : Nat)
  | other

inductive Fault where
  | duplicateSheet
deriving DecidableEq

/-- `NumberedCaptions`, 37-43: the caption and the next number. -/
def caption (kind : String) (n : Nat) (h : String) : String × Nat :=
  if h = "" then (h, n) else (kind ++ " " ++ toString n ++ ": " ++ h, n + 1)

/-- `sheet_startrow.get(name, 0)`. -/
def startOf (w : Writer) (name : String) : Nat := (w.startrow.lookup name).getD 0

/-- `sheet_startrow[name] = row`. -/
def setStart (w : Writer) (name : String) (row : Nat) : Writer := { w with startrow := (name, row) :: w.startrow }

/-- Whether the workbook has a sheet of that name: upper and lower case letters are the same to it. -/
def taken (w : Writer) (name : String) : Bool := (w.sheets.map (fun s => s.2.toLower)).contains name.toLower

/-- `add_worksheet`, 278-302: the name of the sheet that is given for a name; another one, with a number, if the workbook has one that differs in case only
(`none` beyond 99). -/
def sheetFor (w : Writer) (name : String) : Option String :=
  match w.sheets.lookup name with
  | some s => some s
  | none => if taken w name then ((List.range 98).map (fun i => name ++ toString (i + 2))).find? (fun m => !taken w m) else some name

/-- The writer with this sheet. -/
def withSheet (w : Writer) (name sheet : String) : Writer :=
  if (w.sheets.lookup name).isSome then w else { w with sheets := w.sheets ++ [(name, sheet)] }

/-- The link back and the heading, 327-334 and 395-401, written at `row`: the writer, and the next row. -/
def putHeading (w : Writer) (table : Bool) (name sheet : String) (h : Option String) (row : Nat) : Writer × Nat :=
  match h with
  | none => (w, row)
  | some t =>
    let c := caption (if table then "Table" else "Figure") (if table then w.tables else w.figures) t
    ({ w with tables := if table then c.2 else w.tables, figures := if table then w.figures else c.2,
              toc := w.toc ++ [(c.1, name, row + 1)], marks := w.marks ++ [⟨sheet, row, row + 2, .heading c.1⟩] }, row + 2)

/-- Something written in `n` rows. -/
def put (w : Writer) (sheet : String) (row n : Nat) (what : What) : Writer := { w with marks := w.marks ++ [⟨sheet, row, row + n, what⟩] }

/-- Lines 457-462: the blurb, `b` lines. -/
def putBlurb (w : Writer) (sheet : String) (row b : Nat) : Writer × Nat := if b = 0 then (w, row) else (put w sheet row b .blurb, row + b)

/-- The rows pandas writes. -/
def written (rows levels : Nat) (header : Bool) : Nat := rows + (if header then levels + (if levels > 1 then 1 else 0) else 0)

/-- The rows of lines 337-340. -/
def reserved (rows levels : Nat) (named : Bool) : Nat := rows + levels + (if named then 1 else 0) + 2

/-- A frame, 318-343 and 451-465.  Pandas writes to `self.sheets[worksheet.name]`, or to a new sheet of that name. -/
def addFrame (w : Writer) (rows levels : Nat) (named header : Bool) (name sheet : String) (h : Option String) (start b : Nat) : Except Fault Writer :=
  let p := putHeading w true name sheet h start
  if (p.1.sheets.lookup sheet).isNone then .error .duplicateSheet
  else
    let q := putBlurb (put p.1 sheet p.2 (written rows levels header) (.body w.added)) sheet (p.2 + reserved rows levels named) b
    .ok { setStart q.1 sheet q.2 with added := w.added + 1 }

/-- A picture, 365-407 and 451-465. -/
def addPicture (w : Writer) (height : Nat) (name sheet : String) (h : Option String) (start b : Nat) : Writer :=
  let p := putHeading w false name sheet h start
  let q := putBlurb (put p.1 sheet p.2 height (.body w.added)) sheet (p.2 + (height + 3)) b
  { setStart q.1 sheet q.2 with added := w.added + 1 }

/-- A nested dict, 409-449: written as a frame, with heading and blurb; then the blurb is written again, at the row where it all began, and `sheet_startrow` set as if
nothing else had been written. -/
def addDict (w : Writer) (rows : Nat) (name sheet : String) (h : Option String) (start b : Nat) : Except Fault Writer :=
  (addFrame w rows 1 false false name sheet h start b).map (fun v =>
    let q := putBlurb v sheet start b
    setStart q.1 sheet q.2)

/-- `add_content_tab(content, sheetname, heading, blurb=...)`, 308-467. -/
def add (w : Writer) (c : Content) (name : String) (h : Option String) (b : Nat) : Except Fault Writer :=
  match sheetFor w name with
  | none => .error .duplicateSheet
  | some sheet =>
    let v := withSheet w name sheet
    match c with
    | .frame rows levels named header => addFrame v rows levels named header name sheet h (startOf w name) b
    | .picture height => .ok (addPicture v height name sheet h (startOf w name) b)
    | .dict rows => addDict v rows name sheet h (startOf w name) b
    | .other => .ok { setStart v sheet (startOf w name) with added := w.added + 1 }

/-- An addition: content, sheet, heading, lines of the blurb. -/
structure Addition where
  content : Content
  sheet : String
  heading : Option String
  blurb : Nat

/-- Additions one after the other. -/
def addAll (w : Writer) : List Addition → Except Fault Writer
  | [] => .ok w
  | a :: r => (add w a.content a.sheet a.heading a.blurb).bind (fun v => addAll v r)

/-- A writer without contents, with the sheets of 79-92. -/
def fresh : Writer := ⟨[("Contents", "Contents"), ("_log_", "_log_"), ("_metadata_", "_metadata_")], [], 1, 1, [], [], 0⟩

/-! ## Nested dicts, 409-441 -/

/-- A nested content: numbers and texts (also `None`), as text; dicts and series (entry by entry, keys being texts) and sequences, up to their end; a frame, over which
iteration gives the labels of its columns. -/
inductive Item where
  | leaf (v : String)
  | ended
  | entry (key : String) (value rest : Item)
  | element (value rest : Item)
  | frame (columns : List String) (cells : List (List String))

/-- Cells with column, row and value, and `row` and `prev_col`. -/
structure Sheet where
  cells : List (Nat × Int × String)
  row : Int
  prev : Nat
deriving DecidableEq

/-- Lines 429-434. -/
def place (s : Sheet) (indent : Nat) (v : String) : Sheet :=
  let row := if s.prev ≥ indent then s.row + 1 else s.row
  ⟨s.cells ++ [(indent, row, v)], row, indent⟩

/-- `unpacker`, 418-434. -/
def unpack (s : Sheet) (indent : Nat) : Item → Sheet
  | .leaf v => place s indent v
  | .ended => s
  | .entry k v rest => unpack (unpack (place s indent k) (indent + 1) v) indent rest
  | .element v rest => unpack (unpack s indent v) indent rest
  | .frame columns _ => columns.foldl (fun t c => place t indent c) s

/-- Lines 412-435. -/
def cellsOf (i : Item) : List (Nat × Int × String) := (unpack ⟨[], -1, 0⟩ 0 i).cells

/-- The table of lines 436-438, at a row and column: the last cell set there. -/
def tableAt (i : Item) (row : Int) (col : Nat) : String :=
  (((cellsOf i).reverse.find? (fun c => decide (c.1 = col ∧ c.2.1 = row))).map (fun c => c.2.2)).getD ""

/-! ## Embedded objects, 255-269 and 526-543 -/

/-- The pieces of lines 263-266. -/
def pieces : Nat → List Char → List (List Char)
  | 0, _ => []
  | _ + 1, [] => []
  | n + 1, s => s.take 30000 :: pieces n (s.drop 30000)

/-- A row of the sheet `_metadata_`. -/
structure MetaRow where
  key : String
  len : Nat
  vals : List (List Char)

/-- `add_metadata(key, value)`: `s` is the pickled value as text; a sheet has 16384 columns, further cells are not written.
(Pandas reads a cell like `null` or `1234` as missing or a number; a last piece of four characters could be one, which is left out here.) -/
def addMetadata (rows : List MetaRow) (key : String) (s : List Char) : List MetaRow :=
  rows ++ [⟨key, (pieces s.length s).length, (pieces s.length s).take 16382⟩]

/-- `row[1:row[0] + 1].str.cat()`. -/
def joined (r : MetaRow) : List Char := (r.vals.take r.len).flatten

/-- `load_metadata(filename, key)`: the text of the value; with several rows of the key `raw.loc[key]` is a frame, and `row[0]` raises. -/
def loadMetadata (rows : List MetaRow) (key : String) : Option (List Char) :=
  match rows.filter (fun r => r.key = key) with
  | [r] => some (joined r)
  | _ => none

/-- `load_metadata(filename)`: a dict, in which the last row of a key counts. -/
def loadAll (rows : List MetaRow) (key : String) : Option (List Char) := ((rows.reverse.find? (fun r => r.key = key)).map joined)

end Larch.Workbook
