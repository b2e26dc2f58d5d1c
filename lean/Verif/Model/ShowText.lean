import Mathlib.Data.List.Basic

/-!
# Texts for display (`larch/util/text_manip.py`)

`max_len`, `grid_str` and `truncate_path_for_display`.  A text is a list of characters, its `len` the number of them.
-/

namespace Larch.ShowText

abbrev Text := List Char

/-- `sep.join(l)`. -/
def join (sep : Text) : List Text → Text
  | [] => []
  | [a] => a
  | a :: b :: r => a ++ sep ++ join sep (b :: r)

/-- `max_len(arg, at_least)`, `text_manip.py:75-88`, of texts (the fallbacks for other arguments are not modelled). -/
def maxLen (l : List Text) (atLeast : Nat) : Nat := (l.map List.length).foldl max atLeast

/-- What `grid_str` does. -/
inductive Outcome where
  | text (t : Text)
  | indexError
  | never
deriving DecidableEq

/-- `x`: the width of each column from the `n`th on, until a row has no such column (`IndexError`), `text_manip.py:92-98`; at most `fuel` columns. -/
def widths (rows : List (List Text)) (n : Nat) : Nat → List Nat
  | 0 => []
  | fuel + 1 =>
    if rows.all (fun r => n < r.length) then maxLen (rows.map (fun r => r.getD n [])) 0 :: widths rows (n + 1) fuel else []

/-- `t.ljust(w)`. -/
def ljust (t : Text) (w : Nat) : Text := t ++ List.replicate (w - t.length) ' '

/-- One line: the cells `t[i].ljust(x[i]) for i in range(len(t))`; `none` is `x[i]` raising `IndexError`.  `text_manip.py:99`. -/
def line (pre suf : Text) (x : List Nat) (t : List Text) : Option Text :=
  if t.length ≤ x.length then some (pre ++ join [' '] (t.zipWith ljust x) ++ suf) else none

/-- `grid_str(arg, lineprefix, linesuffix)`, `text_manip.py:91-100`.  Without rows no `IndexError` ends the loop. -/
def gridStr (rows : List (List Text)) (pre suf : Text) : Outcome :=
  match rows with
  | [] => .never
  | first :: _ =>
    match rows.mapM (line pre suf (widths rows 0 (first.length + 1))) with
    | some ls => .text (join ['\n'] ls)
    | none => .indexError

/-- `pathlib.Path` (POSIX): from the root or not, and the names. -/
structure Path where
  root : Bool
  names : List Text

/-- `str(path)`. -/
def Path.str (p : Path) : Text := if p.root then '/' :: join ['/'] p.names else if p.names.isEmpty then ['.'] else join ['/'] p.names

/-- `path.parts`. -/
def Path.parts (p : Path) : List Text := if p.root then ['/'] :: p.names else p.names

/-- `str(Path('⋯', *rest))` of names. -/
def dotted (rest : List Text) : Text := join ['/'] (['⋯'] :: rest)

/-- The loop over `trimmer`, `text_manip.py:119-125`; the argument is `parts[trimmer:]`.  (With none left, `maxlen` is taken to be at least one.) -/
def trim (maxlen : Nat) : List Text → Text
  | [] => dotted []
  | [b] => dotted [b]
  | a :: b :: r => if (dotted (a :: b :: r)).length ≤ maxlen then dotted (a :: b :: r) else trim maxlen (b :: r)

/-- `truncate_path_for_display(p, maxlen)`, `text_manip.py:104-125`. -/
def truncate (p : Path) (maxlen : Nat) : Text :=
  if p.str.length ≤ maxlen then p.str else trim maxlen (p.parts.drop 1)

end Larch.ShowText
