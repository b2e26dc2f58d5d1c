import Verif.Model.Watched

/-!
# Dictionaries of strings (`larch/roles.py:2106-2127`)

`DictOfStrings`, used for `rename_parameters`.  `str` makes texts of Python's values; a value is a text if `str` leaves it as it is.  Dictionaries are
as in `Model/Watched` (`dict`'s own operations); notifications are those of C42 and not repeated here.
-/

namespace Larch.StrDict

open Larch.Watched

variable {O : Type} [DecidableEq O] (str : O → O)

inductive Call (O : Type) where
  | contains (k : O)
  | getitem (k : O)
  | setitem (k v : O)
  | setdefault (k v : O)
  | get (k : O)
  | delitem (k : O)
  | pop (k : O)
  | update (items : List (O × O))

inductive Result (O : Type) where
  | bool (b : Bool)
  | value (v : O)
  | nothing
  | keyError
  deriving DecidableEq

/-- The constructor, lines 2108-2115: `dict` of the items as they are. -/
def make (items : List (O × O)) : List (O × O) := writeAll [] items

/-- `copy`, lines 2124-2125: made anew of its own items. -/
def copy (d : List (O × O)) : List (O × O) := make d

/-- One call: lines 2116-2123; `get`, `del`, `pop` and `update` are those of `dict` (by `TouchNotify`). -/
def call (d : List (O × O)) : Call O → Result O × List (O × O)
  | .contains k => (.bool (entry d (str k)).isSome, d)
  | .getitem k => match entry d (str k) with
    | some v => (.value v, d)
    | none => (.keyError, d)
  | .setitem k v => (.nothing, write d (str k) (str v))
  | .setdefault k v => match entry d (str k) with
    | some u => (.value u, d)
    | none => (.value (str v), write d (str k) (str v))
  | .get k => match entry d k with
    | some v => (.value v, d)
    | none => (.nothing, d)
  | .delitem k => match entry d k with
    | some _ => (.nothing, erase d k)
    | none => (.keyError, d)
  | .pop k => match entry d k with
    | some v => (.value v, erase d k)
    | none => (.keyError, d)
  | .update items => (.nothing, writeAll d items)

/-- Calls one after the other. -/
def calls (d : List (O × O)) (cs : List (Call O)) : List (O × O) := cs.foldl (fun d c => (call str d c).2) d

end Larch.StrDict
