import Mathlib.Data.List.Sort
import Mathlib.Data.List.Dedup

/-!
# Pods of idce data (`larch/data_services/h5/h5pod/idce.py`, `idca.py`)

A pod holds named vectors of one length.  `none` is an exception.
-/

namespace Larch.PodCe

variable {K : Type} [Zero K] [One K]

/-- `numpy.unique(labels, return_inverse=True)` (`idce.py:90`): the labels in order, and for each entry the place of its label. -/
def indexes {α : Type} [LinearOrder α] (labels : List α) : List α × List Nat :=
  (labels.dedup.insertionSort (· ≤ ·), labels.map (fun l => (labels.dedup.insertionSort (· ≤ ·)).idxOf l))

/-- `cx.max()+1`; there is no maximum of nothing. -/
def extent (ix : List Nat) : Option Nat :=
  match ix with
  | [] => none
  | i :: t => some (t.foldl max i + 1)

/-- `result[cx, ax] = values`, on an array of zeros (`idce.py:401`, `idca.py:157`): one cell of the result.  Later entries replace earlier ones. -/
def scatter (cx ax : List Nat) (vals : List K) (c a : Nat) : K :=
  (((cx.zip (ax.zip vals)).reverse.find? (fun r => decide (r.1 = c ∧ r.2.1 = a))).map (fun r => r.2.2)).getD 0

/-- `as_array_idca(*names, present=...)`, `idce.py:384-403`: the shape, and the cells by case, alternative and place of the name.  (The vectors of a pod
have one length.) -/
def asArray (cx ax : List Nat) (data : String → Option (List K)) (present : Option String) (names : List String) :
    Option ((Nat × Nat × Nat) × (Nat → Nat → Nat → K)) :=
  (extent cx).bind (fun n => (extent ax).bind (fun m =>
    if names.all (fun s => present == some s || (data s).isSome) then
      some ((n, m, names.length), fun c a x =>
        match names[x]? with
        | none => 0
        | some s => if present = some s then scatter cx ax (cx.map (fun _ => (1 : K))) c a else scatter cx ax ((data s).getD []) c a)
    else none))

end Larch.PodCe
