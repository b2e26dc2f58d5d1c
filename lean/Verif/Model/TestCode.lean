/-!
# The code of an example (`larch/examples/__init__.py:45-63`)

`_testcode_iter`, with which `example` takes the code out of a document: the lines under `.. testcode::`.  White space is blank, tab, line end and
carriage return.
-/

namespace Larch.TestCode

def isWhite (c : Char) : Bool := c == ' ' || c == '\t' || c == '\n' || c == '\r'

/-- `line.rstrip()`, line 49. -/
def rstrip (l : List Char) : List Char := (l.reverse.dropWhile isWhite).reverse

/-- Lines 50-63 for lines after `rstrip`. -/
def scan : Bool → List (List Char) → List (List Char)
  | _, [] => []
  | active, line :: rest =>
    if line = ".. testcode::".toList then scan true rest
    else if line = [] ∨ line = "\t:hide:".toList then scan active rest
    else if line.head? = some '\t' then (if active then [line.drop 1] else []) ++ scan active rest
    else if line.head? = some ' ' then (if active then [line.drop 5] else []) ++ scan active rest
    else scan false rest

/-- `_testcode_iter`. -/
def extract (lines : List (List Char)) : List (List Char) := scan false (lines.map rstrip)

end Larch.TestCode
