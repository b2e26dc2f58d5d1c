import Mathlib.Data.List.Basic

/-!
# Reading DBF files (`larch/data_services/dbf/dbf_reader.pyx`)

Bytes are natural numbers below 256.  `char` is signed, as it is on x86, and Cython raises `OverflowError` when a number which does not fit
is put into a C variable.  Products of C integers wrap around (the extension modules are compiled with `-fwrapv`).  `atof` and the
decoding of texts are left to the caller of the model: a text is its bytes, and only ASCII white space is stripped.  Opening `.gz` files,
`make_copy`, `convert_to_hdf5` and `df2dbf` are not modelled.
-/

namespace Larch.Dbf

inductive Err where
  | index
  | overflow
  | memory
deriving DecidableEq

/-- `fctype`, `dbf_reader.pyx:19-23`. -/
inductive Kind where
  | integer
  | double
  | string
  | other
deriving DecidableEq

/-- What is kept of a field, `dbf_reader.pyx:26-35`: the 11 bytes of the name, type, length, decimals, displacement. -/
structure Field where
  raw : List Nat
  typ : Nat
  len : Nat
  dec : Nat
  disp : Nat
deriving DecidableEq

structure Header where
  nrecs : Nat
  recln : Nat
  fields : List Field
deriving DecidableEq

/-- `hb[j]` of the bytes read. -/
def byteAt (hb : List Nat) (j : Nat) : Except Err Nat :=
  match hb[j]? with
  | some b => .ok b
  | none => .error .index

/-- A Python number put into a `char`. -/
def toChar (b : Nat) : Except Err Nat := if b ≤ 127 then .ok b else .error .overflow

/-- A byte of the header put into a `char`. -/
def charAt (hb : List Nat) (j : Nat) : Except Err Nat :=
  match byteAt hb j with
  | .ok b => toChar b
  | .error e => .error e

/-- One field descriptor, `dbf_reader.pyx:80-99`. -/
def readField (hb : List Nat) (disp : Nat) : Except Err Field :=
  match (List.range 11).mapM (charAt hb), charAt hb 11, charAt hb 16, charAt hb 17 with
  | .ok raw, .ok typ, .ok len, .ok dec => .ok ⟨raw, typ, len, dec, disp⟩
  | .error e, _, _, _ => .error e
  | _, .error e, _, _ => .error e
  | _, _, .error e, _ => .error e
  | _, _, _, .error e => .error e

/-- The loop over the fields, `dbf_reader.pyx:79-115`. -/
def readFields : Nat → List Nat → Nat → Except Err (List Field)
  | 0, _, _ => .ok []
  | n + 1, file, disp =>
    match readField (file.take 32) disp with
    | .error e => .error e
    | .ok f =>
      match readFields n (file.drop 32) (disp + f.len) with
      | .error e => .error e
      | .ok fs => .ok (f :: fs)

/-- `_readDBFFileHeader`, `dbf_reader.pyx:52-118`; `cdivision` divides towards zero (a header length
below 2, which gives -1 fields, is not told from none).  There is room for 256 fields, and nothing tests this: `memory` stands for writing beyond. -/
def readHeader (file : List Nat) : Except Err Header :=
  match byteAt (file.take 32) 4, byteAt (file.take 32) 5, byteAt (file.take 32) 6, byteAt (file.take 32) 7, byteAt (file.take 32) 8,
      byteAt (file.take 32) 9, byteAt (file.take 32) 10, byteAt (file.take 32) 11 with
  | .ok n0, .ok n1, .ok n2, .ok n3, .ok h0, .ok h1, .ok r0, .ok r1 =>
    if 2 ^ 31 ≤ n0 + 256 * n1 + 256 * 256 * n2 + 256 * 256 * 256 * n3 then .error .overflow
    else if 256 < (h0 + 256 * h1 - 33) / 32 then .error .memory
    else
      match readFields ((h0 + 256 * h1 - 33) / 32) (file.drop 32) 1 with
      | .error e => .error e
      | .ok fs => .ok ⟨n0 + 256 * n1 + 256 * 256 * n2 + 256 * 256 * 256 * n3, r0 + 256 * r1, fs⟩
  | _, _, _, _, _, _, _, _ => .error .index

/-- `fname[i].decode()`, `dbf_reader.pyx:335-339`: the bytes from the name on up to the first zero; the names follow one another, and zeros follow. -/
def nameAt (h : Header) (i : Nat) : List Nat := (((h.fields.map Field.raw).flatten ++ [0]).drop (11 * i)).takeWhile (fun b => b ≠ 0)

/-- `fieldnames()`. -/
def fieldNames (h : Header) : List (List Nat) := (List.range h.fields.length).map (nameAt h)

/-- `dbf_reader.pyx:101-111`: 78 is N, 70 is F, 67 is C. -/
def kind (f : Field) : Kind :=
  if f.typ = 78 then (if f.dec = 0 then .integer else .double)
  else if f.typ = 70 then .double
  else if f.typ = 67 then .string
  else .other

/-- A product of two `int`s. -/
def wrap32 (x : Int) : Int := (x + 2 ^ 31) % 2 ^ 32 - 2 ^ 31

/-- `pull_record_data`, `dbf_reader.pyx:148-156`: `none` when the place is before the file (`fseek` fails) or the file ends too early. -/
def pull (file : List Nat) (h : Header) (row : Nat) : Option (List Nat) :=
  let i := wrap32 (row * h.recln) + 32 * (h.fields.length + 1) + 1
  if i < 0 then none
  else if ((file.drop i.toNat).take h.recln).length = h.recln then some ((file.drop i.toNat).take h.recln) else none

/-- The bytes of a field in the buffer, closed by a zero, `dbf_reader.pyx:222-228`: a C text ends at the first zero. -/
def cText (buffer : List Nat) (f : Field) : List Nat := (((buffer.drop f.disp).take f.len)).takeWhile (fun b => b ≠ 0)

/-- `isspace` of C. -/
def isSpace (b : Nat) : Bool := b == 32 || (decide (9 ≤ b) && decide (b ≤ 13))

/-- A digit's value. -/
def isDigit (b : Nat) : Bool := decide (48 ≤ b) && decide (b ≤ 57)

/-- Digits of a decimal number. -/
def digits (l : List Nat) : Nat := (l.takeWhile isDigit).foldl (fun a b => 10 * a + (b - 48)) 0

/-- `atoll`: what is beyond the range gives its end. -/
def clamp64 (x : Int) : Int := max (-(2 ^ 63)) (min (2 ^ 63 - 1) x)

def atollSigned : List Nat → Int
  | 45 :: l => -(digits l : Int)
  | 43 :: l => digits l
  | l => digits l

def atoll (s : List Nat) : Int := clamp64 (atollSigned (s.dropWhile isSpace))

/-- `str.strip()` for ASCII. -/
def isBlank (b : Nat) : Bool := isSpace b || (decide (28 ≤ b) && decide (b ≤ 31))

def strip (s : List Nat) : List Nat := ((s.dropWhile isBlank).reverse.dropWhile isBlank).reverse

/-- A cell of a frame. -/
inductive Cell (F : Type) where
  | int (i : Int)
  | dbl (x : F)
  | str (s : List Nat)
deriving DecidableEq

/-- The value of a field in a record, `dbf_reader.pyx:206-256`; fields of other kinds are not read. -/
def cellOf {F : Type} (atof : List Nat → F) (stripped : Bool) (buffer : List Nat) (f : Field) : Option (Cell F) :=
  match kind f with
  | .integer => some (.int (atoll (cText buffer f)))
  | .double => some (.dbl (atof (cText buffer f)))
  | .string => some (.str (if stripped then strip (cText buffer f) else cText buffer f))
  | .other => none

/-- A frame: names of the columns, and rows with their labels. -/
structure Frame (F : Type) where
  cols : List (List Nat)
  rows : List (Nat × List (Cell F))
deriving DecidableEq

/-- The fields in the order of the columns, `dbf_reader.pyx:553-570`: as in the file, or integers, numbers, texts; numbered by their places. -/
def columnOrder (h : Header) (preserve : Bool) : List (Field × Nat) :=
  let all := h.fields.zipIdx
  if preserve then all.filter (fun e => kind e.1 ≠ .other)
  else all.filter (fun e => kind e.1 = .integer) ++ all.filter (fun e => kind e.1 = .double) ++ all.filter (fun e => kind e.1 = .string)

/-- `_load_dataframe`, `dbf_reader.pyx:543-571`; names of fields are distinct.  `none` when `IndexError` is raised or a record cannot be read. -/
def load {F : Type} (atof : List Nat → F) (file : List Nat) (h : Header) (start stop : Int) (preserve stripped : Bool) : Option (Frame F) :=
  let stop := if stop < 0 ∨ (h.nrecs : Int) < stop then (h.nrecs : Int) else stop
  if start < 0 ∨ (h.nrecs : Int) < start then none
  else
    (((List.range (stop - start).toNat).map (fun i => start.toNat + i)).mapM (fun row => (pull file h row).map (fun b =>
      (row, (columnOrder h preserve).filterMap (fun e => cellOf atof stripped b e.1))))).map (fun rows =>
        ⟨(columnOrder h preserve).map (fun e => nameAt h e.2), rows⟩)

/-- The bounds used by `load_dataframe_iter`, `dbf_reader.pyx:622-633`; `none` when the rounds are over and it is not done. -/
def chunks (nrecs chunk : Nat) : Nat → Nat → Option (List (Nat × Nat))
  | 0, start => if start < nrecs then none else some []
  | fuel + 1, start =>
    if start < nrecs then (chunks nrecs chunk fuel (start + chunk)).map (fun r => (start, min (start + chunk) nrecs) :: r)
    else some []

/-- `load_dataframe_iter(chunksize)`, `dbf_reader.pyx:605-633`: the frames yielded. -/
def loadIter {F : Type} (atof : List Nat → F) (file : List Nat) (h : Header) (chunk : Nat) (fuel : Nat) : Option (List (Frame F)) :=
  (chunks h.nrecs chunk fuel 0).bind (fun l => l.mapM (fun e => load atof file h e.1 e.2 false false))

end Larch.Dbf
