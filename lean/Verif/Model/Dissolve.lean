import Mathlib.Data.List.Sort
import Mathlib.Data.List.Dedup
import Mathlib.Data.Int.Basic
import Mathlib.Order.Defs.LinearOrder
import Mathlib.Algebra.Order.Ring.Int

/-!
# Dissolving coordinates, and counting values (`larch/dataset/flow.py:427-438`, `larch/dataset/__init__.py:139-154`)

Labels and values are integers; an array in one dimension is a list.  A value `none` is python's `None`, in an array of objects.  What
`reset_index` does to the dataset apart from taking away the labels of the dimension is not modelled.
-/

namespace Larch.Dissolve

/-- `mapper.get` for `mapper = dict((j, i) for (i, j) in enumerate(a.to_series()))`, flow.py:430-431: a label that occurs several times has
its last position. -/
def getPos (labels : List Int) (v : Int) : Option Nat :=
  (labels.zipIdx.reverse.find? (fun p => p.1 = v)).map Prod.snd

/-- Exceptions. -/
inductive Fault where
  | key
  | value
  | type
deriving DecidableEq

/-- The positions of one value; `None` is in no dictionary of labels. -/
def mapped (labels : List Int) (v : Option Int) : Option Int := (v.bind (getPos labels)).map Int.ofNat

/-- `numpy.vectorize(mapper.get)` applied to an array, flow.py:431, 437: no values: `ValueError`; the first result sets the type of the
array, so that a `None` among the others is an error exactly when the first result is a number. -/
def mapArray (labels : List Int) (l : List (Option Int)) : Except Fault (List (Option Int)) :=
  match l with
  | [] => .error .value
  | x :: _ =>
    if (mapped labels x).isSome && l.any (fun y => (mapped labels y).isNone) then .error .type
    else .ok (l.map (mapped labels))

/-- The variables of a dataset. -/
abbrev Vars := List (String × List (Option Int))

/-- `d[other] = …` of a variable that is there. -/
def assign (vars : Vars) (name : String) (l : List (Option Int)) : Vars :=
  vars.map (fun e => if e.1 = name then (name, l) else e)

/-- The loop over `others`, flow.py:436-437. -/
def dissolveAll (labels : List Int) : List String → Vars → Except Fault Vars
  | [], vars => .ok vars
  | o :: rest, vars =>
    match vars.lookup o with
    | none => .error .key
    | some l => (mapArray labels l).bind (fun m => dissolveAll labels rest (assign vars o m))

/-- `dissolve_coords(dim, others)`, flow.py:427-438; `labels` are those of the dimension, `others` one name, several or none. -/
def dissolveCoords (labels : List Int) (others : Option (String ⊕ List String)) (vars : Vars) : Except Fault Vars :=
  match others with
  | none => dissolveAll labels [] vars
  | some (.inl o) => dissolveAll labels [o] vars
  | some (.inr l) => dissolveAll labels l vars

/-- `value_counts`, dataset/__init__.py:139-154: `numpy.unique(self, return_counts=True)`. -/
def valueCounts (l : List Int) : List (Int × Nat) :=
  (l.dedup.insertionSort (· ≤ ·)).map (fun v => (v, l.count v))

end Larch.Dissolve
