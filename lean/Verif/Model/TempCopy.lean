import Verif.Model.Watched

/-!
# Copies in the temporary directory (`larch/util/temporaryfile.py:119-134`)

`TemporaryCopy`.  The common temporary directory is the list of its files, names with contents (`Model/Watched` for looking and writing).  Names have no
`/`.  Other processes do not write into the directory, and the source is not a file of it.
-/

namespace Larch.TempCopy

open Larch.Watched

/-- `os.path.splitext` of a name without `/`: at the last dot, if something other than dots is before it. -/
def splitext (p : List Char) : List Char × List Char :=
  let k := p.length - (p.reverse.takeWhile (fun c => c != '.')).length - 1
  if p.contains '.' && (p.take k).any (fun c => c != '.') then (p.take k, p.drop k) else (p, [])

/-- `vbasename` after `n` rounds, lines 124-127. -/
def candidate (base : List Char) (n : Nat) : List Char :=
  if n = 0 then base else (splitext base).1 ++ '.' :: (Nat.repr n).toList ++ (splitext base).2

/-- The loop of lines 125-128; there is a free name after as many rounds as there are files (C206). -/
def search {B : Type} (dir : List (List Char × B)) (base : List Char) (n : Nat) : Nat → List Char
  | 0 => candidate base n
  | fuel + 1 => if (entry dir (candidate base n)).isSome then search dir base (n + 1) fuel else candidate base n

/-- `TemporaryCopy(sourcefile, spool)`: the name of the copy, and the directory after it. -/
def copyTo {B : Type} (dir : List (List Char × B)) (base : List Char) (content : B) (spool : Bool) : List Char × List (List Char × B) :=
  if spool then (search dir base 0 dir.length, write dir (search dir base 0 dir.length) content) else (base, write dir base content)

/-- Copies one after the other: their names, and the directory. -/
def copies {B : Type} (dir : List (List Char × B)) : List (List Char × B) → List (List Char) × List (List Char × B)
  | [] => ([], dir)
  | s :: r => ((copyTo dir s.1 s.2 true).1 :: (copies (copyTo dir s.1 s.2 true).2 r).1, (copies (copyTo dir s.1 s.2 true).2 r).2)

end Larch.TempCopy
