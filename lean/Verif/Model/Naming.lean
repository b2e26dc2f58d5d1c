import Mathlib.Data.List.Basic

/-!
# Names that are identifiers (`larch/util/naming.py`, 10-42), and names of columns for a pod (`larch/data_services/h5/h5pod/idce.py`, 261-286 and
373-379; `idco.py`, 38-43 and 56-61)

The classes of characters of Python (`\w` of `re`, white space of `str.strip`, `str.isidentifier`) are a parameter; `ascii` has them for ASCII.
Warnings are not modelled.
-/

namespace Larch.Naming

abbrev Text := List Char

/-- Classes of characters in Python. -/
structure Chars where
  /-- matched by `\w` -/
  word : Char → Bool
  /-- removed by `strip` -/
  space : Char → Bool
  /-- can be the first character of an identifier -/
  start : Char → Bool
  /-- can be another character of an identifier -/
  cont : Char → Bool

/-- The ASCII characters. -/
def ascii : Chars where
  word c := c.isAlphanum || c == '_'
  space c := c == ' ' || (9 ≤ c.toNat && c.toNat ≤ 13) || (28 ≤ c.toNat && c.toNat ≤ 31)
  start c := c.isAlpha || c == '_'
  cont c := c.isAlphanum || c == '_'

/-- `keyword.kwlist` of Python 3.7. -/
def keywords : List String :=
  ["False", "None", "True", "and", "as", "assert", "async", "await", "break", "class", "continue", "def", "del", "elif", "else", "except", "finally",
   "for", "from", "global", "if", "import", "in", "is", "lambda", "nonlocal", "not", "or", "pass", "raise", "return", "try", "while", "with", "yield"]

def isKeyword (x : Text) : Bool := keywords.any (fun k => k.toList == x)

variable (C : Chars)

/-- `str.isidentifier`. -/
def isIdentifier : Text → Bool
  | [] => false
  | c :: r => C.start c && r.all C.cont

/-- `str.strip()`. -/
def strip (x : Text) : Text := ((x.dropWhile C.space).reverse.dropWhile C.space).reverse

/-- `re.compile('(\W+)').sub("_", y)`: each run of characters that are no word characters becomes one underscore.  `inRun`: the character before
was one. -/
def subRuns (inRun : Bool) : Text → Text
  | [] => []
  | c :: r =>
    if C.word c then c :: subRuns false r
    else if inRun then subRuns true r
    else '_' :: subRuns true r

/-- `make_valid_identifier` (`naming.py`, 10-27). -/
def makeValid (x : Text) : Text :=
  let y := if isKeyword x then '_' :: x else x
  let y := subRuns C false (strip C y)
  if isIdentifier C y then y else '_' :: y

/-- `valid_identifier_or_parenthized_string` (`naming.py`, 30-42); none if it raises. -/
def reference (x : Text) (leadingDot : Bool) : Option Text :=
  if isIdentifier C x then some (if leadingDot then '.' :: x else x)
  else if '\'' ∈ x ∧ '"' ∉ x then some ("(\"".toList ++ x ++ "\")".toList)
  else if '\'' ∉ x ∧ '"' ∈ x then some ("('".toList ++ x ++ "')".toList)
  else none

/-- The label of a column of a pandas frame. -/
inductive Label
  | str (s : Text)
  | int (i : Int)
deriving DecidableEq

/-- `rename_columns[c] if c in rename_columns else c` (`idce.py`, 281). -/
def renameOne (ren : List (Label × Label)) (c : Label) : Label := (ren.lookup c).getD c

/-- `c.replace("/", '_')` (`idce.py`, 282): none if it raises. -/
def noSlash : Label → Option Text
  | .str s => some (s.map (fun c => if c = '/' then '_' else c))
  | .int _ => none

def noSlashAll : List Label → Option (List Text)
  | [] => some []
  | c :: r => (noSlash c).bind (fun a => (noSlashAll r).map (fun t => a :: t))

/-- What `from_dataframe` leaves: the labels of the frame it was given, and the names under which the columns are put into the pod (none if it
raises before). -/
structure Named where
  frame : List Label
  pod : Option (List Text)
deriving DecidableEq

/-- The names of the columns in `H5PodCE.from_dataframe` (`idce.py`, 280-286), and in `from_csv` and `from_excel` (where the frame is not the
caller's).  An empty `rename_columns` renames nothing. -/
def nameColumns (ren : List (Label × Label)) (natural : Bool) (cols : List Label) : Named :=
  let c1 := cols.map (renameOne ren)
  match noSlashAll c1 with
  | none => ⟨c1, none⟩
  | some c2 =>
    let c3 := if natural then c2.map (makeValid C) else c2
    ⟨c3.map .str, some c3⟩

end Larch.Naming
