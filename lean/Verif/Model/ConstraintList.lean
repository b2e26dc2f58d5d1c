import Verif.Model.Constraints

/-!
# Constraint lists (`ParametricConstraintList`, `larch/model/constraints.py:393-522`)

Constraint objects live in a heap, because several lists (of several models) may hold the same object and linking changes the object.
Of an object only what `__eq__` compares (class, parameter names, limits) and the linked positions are kept.  A `KeyError` in
`link_model` is taken to leave the positions unchanged (`RatioBound`, `OrderingBound` may already have moved the first of the two).
`allow_dupes` is `False` throughout, as the constructor sets it.
-/

namespace Larch.ConList

open Larch.Con (loc)

/-- What `__eq__` compares, `constraints.py:188-199, 300-309, 378-388`. -/
structure Item where
  cls : Nat
  params : List String
  limits : List (Option Int)
deriving DecidableEq

/-- A constraint object; `link` are the positions stored by the last successful `link_model`, `none` before. -/
structure Obj where
  item : Item
  link : Option (List Nat)
deriving DecidableEq

/-- A model: the names in its parameter frame, and the ids of the constraint objects in its list. -/
structure M where
  names : List String
  cs : List Nat
deriving DecidableEq

structure St where
  objs : Nat → Obj
  mdls : Nat → M

def St.setObj (s : St) (i : Nat) (o : Obj) : St := { s with objs := Function.update s.objs i o }
def St.setM (s : St) (m : Nat) (x : M) : St := { s with mdls := Function.update s.mdls m x }
def St.setCs (s : St) (m : Nat) (cs : List Nat) : St := s.setM m { s.mdls m with cs := cs }

/-- The positions of the parameters of a constraint in a frame; `none` for the `KeyError`. -/
def positions (names : List String) (c : Item) : Option (List Nat) := c.params.mapM (loc names)

/-- `link_model(model)` on object `i`; the flag tells whether it raised. -/
def St.link (s : St) (m i : Nat) : St × Bool :=
  match positions (s.mdls m).names (s.objs i).item with
  | some ps => (s.setObj i { s.objs i with link := some ps }, false)
  | none => (s, true)

/-- `for i in newself._cx: i.link_model(...)`, stopping at the first exception. -/
def St.linkAll (s : St) (m : Nat) : List Nat → St × Bool
  | [] => (s, false)
  | i :: rest =>
    match s.link m i with
    | (s, true) => (s, true)
    | (s, false) => s.linkAll m rest

/-- `_is_duplicate`, `constraints.py:505-509`. -/
def St.isDup (s : St) (m i : Nat) : Bool := (s.mdls m).cs.any (fun j => (s.objs j).item == (s.objs i).item)

/-- The position at which `list.insert(index, ..)` puts the new entry. -/
def insPos (n : Nat) (index : Int) : Nat :=
  if index < 0 then (index + n).toNat else min index.toNat n

/-- `list[index]` with a Python index; `none` for the `IndexError`. -/
def pyIdx (n : Nat) (index : Int) : Option Nat :=
  if 0 ≤ index then (if index < n then some index.toNat else none)
  else if 0 ≤ index + n then some (index + n).toNat else none

/-- `insert(index, value)`, `constraints.py:489-501`: the object linked afterwards is the one found at `self._cx[index]`. -/
def St.insert (s : St) (m : Nat) (index : Int) (i : Nat) : St × Bool :=
  if s.isDup m i then (s, false)
  else
    let cs := (s.mdls m).cs
    let cs' := cs.insertIdx (insPos cs.length index) i
    let s := s.setCs m cs'
    match (pyIdx cs'.length index).bind (fun k => cs'[k]?) with
    | none => (s, true)
    | some j => s.link m j

/-- `append` of `MutableSequence`: `self.insert(len(self), value)`. -/
def St.append (s : St) (m i : Nat) : St × Bool := s.insert m ((s.mdls m).cs.length : Int) i

/-- `extend` of `MutableSequence`. -/
def St.extend (s : St) (m : Nat) : List Nat → St × Bool
  | [] => (s, false)
  | i :: rest =>
    match s.append m i with
    | (s, true) => (s, true)
    | (s, false) => s.extend m rest

/-- `__setitem__`, `constraints.py:466-477`. -/
def St.setitem (s : St) (m : Nat) (key : Int) (i : Nat) : St × Bool :=
  if s.isDup m i then (s, false)
  else
    match pyIdx (s.mdls m).cs.length key with
    | none => (s, true)
    | some k => (s.setCs m ((s.mdls m).cs.set k i)).link m i

/-- `__delitem__`, `constraints.py:479-484`. -/
def St.delitem (s : St) (m : Nat) (key : Int) : St × Bool :=
  match pyIdx (s.mdls m).cs.length key with
  | none => (s, true)
  | some k => (s.setCs m ((s.mdls m).cs.eraseIdx k), false)

/-- `model.constraints = values` for a Python list of constraint objects, `__set__` and `__init__`, `constraints.py:397-405, 430-444`. -/
def St.assign (s : St) (m : Nat) (ids : List Nat) : St × Bool := (s.setCs m ids).linkAll m ids

/-- `model.constraints = other.constraints`: `__init__` empties the list before it iterates over the values, so when the list is
assigned to its own model there is nothing left to iterate over. -/
def St.assignFrom (s : St) (m m' : Nat) : St × Bool :=
  if m' = m then s.assign m [] else s.assign m (s.mdls m').cs

/-- `model.constraints += values`: `__iadd__` of `MutableSequence` extends and returns the list, which is then assigned to the
attribute. -/
def St.iadd (s : St) (m : Nat) (ids : List Nat) : St × Bool :=
  match s.extend m ids with
  | (s, true) => (s, true)
  | (s, false) => s.assignFrom m m

/-- One exchange of `reverse` (`MutableSequence`): `self[i], self[n-i-1] = self[n-i-1], self[i]`. -/
def St.swap (s : St) (m i j : Nat) : St × Bool :=
  match (s.mdls m).cs[i]?, (s.mdls m).cs[j]? with
  | some a, some b =>
    match s.setitem m (i : Int) b with
    | (s, true) => (s, true)
    | (s, false) => s.setitem m (j : Int) a
  | _, _ => (s, true)

/-- `reverse` of `MutableSequence`. -/
def St.reverse (s : St) (m : Nat) : St × Bool :=
  (List.range ((s.mdls m).cs.length / 2)).foldl (fun r i => if r.2 then r else r.1.swap m i ((s.mdls m).cs.length - i - 1)) (s, false)

/-- The statements of a user. `frame` is any change of the set or order of the parameters: a name found by the scan before an
evaluation, `pf_sort`, `set_frame`. -/
inductive Op where
  | assign (m : Nat) (ids : List Nat)
  | assignFrom (m m' : Nat)
  | iadd (m : Nat) (ids : List Nat)
  | insert (m : Nat) (index : Int) (i : Nat)
  | append (m i : Nat)
  | setitem (m : Nat) (key : Int) (i : Nat)
  | delitem (m : Nat) (key : Int)
  | reverse (m : Nat)
  | frame (m : Nat) (names : List String)
  | rescale (m : Nat)

def St.step (s : St) : Op → St × Bool
  | .assign m ids => s.assign m ids
  | .assignFrom m m' => s.assignFrom m m'
  | .iadd m ids => s.iadd m ids
  | .insert m k i => s.insert m k i
  | .append m i => s.append m i
  | .setitem m k i => s.setitem m k i
  | .delitem m k => s.delitem m k
  | .reverse m => s.reverse m
  | .frame m names => (s.setM m { s.mdls m with names := names }, false)
  | .rescale m => s.linkAll m (s.mdls m).cs

def St.run (s : St) (ops : List Op) : St := ops.foldl (fun s o => (s.step o).1) s

end Larch.ConList
