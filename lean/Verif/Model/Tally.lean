import Mathlib.Data.List.Sort
import Mathlib.Data.List.Dedup
import Mathlib.Algebra.Order.Field.Rat
/-!
# Tallies and fast mappings

Models `larch/util/counting.py` (5-42) and `larch/numba/fast_mapping.py` (14-53).

`none` in a column is a missing value.  `pandas.Series.sort_values` is a parameter of which only
that it sorts is used: its default algorithm is not stable.
-/

namespace Larch.Tally

/-- `bincount` given weights of another length than the entries raises. -/
inductive Err where
  | differentLengths
  deriving DecidableEq, Repr

/-- The entries which are not missing: `arr[~pandas.isnull(arr)]`. -/
def present {α : Type} (arr : List (Option α)) : List α := arr.filterMap id

/-- `pandas.isnull(arr).sum()`. -/
def missing {α : Type} (arr : List (Option α)) : Nat := (arr.filter Option.isNone).length

/-- `tally(arr)` (counting.py:22-28): the values with their counts, sorted, then the number of
missing values unless it is zero. -/
def tally {α : Type} [LinearOrder α] (sort : List (Option α × Nat) → List (Option α × Nat)) (arr : List (Option α)) :
    List (Option α × Nat) :=
  sort (((present arr).dedup.insertionSort (· ≤ ·)).map fun v => (some v, (present arr).count v)) ++
    (if missing arr = 0 then [] else [(none, missing arr)])

/-- `tally` of an array with a dictionary (counting.py:7-21): the values are replaced by what the
dictionary says of them. -/
def tallyNamed {α : Type} [LinearOrder α] (sort : List (Option α × Nat) → List (Option α × Nat)) (d : α → Option α)
    (arr : List (Option α)) : List (Option α × Nat) :=
  sort (((present arr).dedup.insertionSort (· ≤ ·)).map fun v => (some ((d v).getD v), (present arr).count v)) ++
    (if missing arr = 0 then [] else [(none, missing arr)])

/-- `numpy.bincount(inv, wgt)` for one of the values (counting.py:38): the sum of the weights at
the places of the value. -/
def weightAt {α : Type} [DecidableEq α] (xs : List α) (wgt : List ℚ) (v : α) : ℚ :=
  (((xs.zip wgt).filter fun p => decide (p.1 = v)).map Prod.snd).sum

/-- `tally_weighted(arr, wgt)` (counting.py:30-42). -/
def tallyWeighted {α : Type} [LinearOrder α] (sort : List (Option α × ℚ) → List (Option α × ℚ)) (arr : List (Option α))
    (wgt : List ℚ) : Except Err (List (Option α × ℚ)) :=
  if (present arr).length = wgt.length then
    let w := (((arr.zip wgt).filter fun p => p.1.isNone).map Prod.snd).sum
    .ok (sort (((present arr).dedup.insertionSort (· ≤ ·)).map fun v => (some v, weightAt (present arr) wgt v)) ++
      (if w = 0 then [] else [(none, w)]))
  else .error .differentLengths

/-- `m[k] = v`. -/
def setItem {K V : Type} [DecidableEq K] (m : List (K × V)) (k : K) (v : V) : List (K × V) :=
  match m with
  | [] => [(k, v)]
  | p :: rest => if p.1 = k then (k, v) :: rest else p :: setItem rest k v

/-- The dictionary of a `FastMapping` made from a series (fast_mapping.py:17-25). -/
def fromSeries {K V : Type} [DecidableEq K] (source : List (K × V)) : List (K × V) :=
  source.foldl (fun m q => setItem m q.1 q.2) []

/-- The dictionary of a `FastMapping` made from an array (fast_mapping.py:26-34). -/
def fromArray {K : Type} [DecidableEq K] (source : List K) : List (K × Nat) := fromSeries source.zipIdx

/-- `_fast_map` (fast_mapping.py:6-11) after the conversion of the targets to the type of the keys
(fast_mapping.py:47-53); `none` is a `KeyError`. -/
def applyTo {T K V : Type} [DecidableEq K] (cast : T → K) (m : List (K × V)) (target : List T) : Option (List V) :=
  target.mapM fun t => m.lookup (cast t)

/-- `astype(int64)` of a floating point number: the digits after the point are cut off. -/
def toInt (q : ℚ) : Int := if 0 ≤ q then q.floor else q.ceil

end Larch.Tally
