import Verif.Model.AltCodes
import Mathlib.Data.Real.Basic
import Mathlib.Algebra.BigOperators.Group.List.Basic
import Mathlib.Algebra.Order.Floor.Ring

/-!
# Array utilities

Model of `larch/util/data_expansion.py` (piecewise, hard sigmoid, one-hot, ratio_min), `larch/util/data_manipulation.py`
(`periodize`), `larch/util/arraytools.py` (label lookups) and `larch/scoring.py` (ranks).  Element-wise array functions
are modelled on one element; values are exact reals.
-/

namespace Larch.Util

open Larch.AltCodes (uniq)

/-! ## Piecewise linear -/

/-- `numpy.clip(x, lo, hi)`: `minimum(maximum(x, lo), hi)`. -/
noncomputable def clip (x lo hi : ℝ) : ℝ := min (max x lo) hi

/-- `piece`, `data_expansion.py:235-268`. -/
noncomputable def piece (x : ℝ) : Option ℝ → Option ℝ → ℝ
  | none, none => x
  | none, some hi => min x hi
  | some lo, none => max (x - lo) 0
  | some lo, some hi => clip x lo hi - lo

/-- The (low, high) bounds of the legs written into the data names by `piecewise_linear_data_names`,
`data_expansion.py:334-347`; an empty list of breaks raises IndexError (`none`). -/
def legs {α : Type} : List α → Option (List (Option α × Option α))
  | [] => none
  | b :: bs =>
    some ((none, some b) :: ((b :: bs).zip bs).map (fun p => (some p.1, some p.2)) ++
      [(some ((b :: bs).getLast (by simp)), none)])

/-- One row of `piecewise_expansion`, `data_expansion.py:374-425`. -/
noncomputable def piecewiseExpansion (x : ℝ) (breaks : List ℝ) : Option (List ℝ) :=
  (legs breaks).map (fun l => l.map (fun b => piece x b.1 b.2))

/-- The loop of `infer_breaks`, `data_expansion.py:363-367`. `last` is `breaks[-1]`. -/
def inferMid {α : Type} [DecidableEq α] (acc : List α) (last : α) :
    List (Option α × Option α) → Except String (List α × α)
  | [] => .ok (acc, last)
  | (some lo, some hi) :: rest =>
    if last = lo then inferMid (acc ++ [hi]) hi rest else .error "NotImplementedError"
  | (none, _) :: _ => .error "NotImplementedError"
  | (some _, none) :: _ => .error "unbounded middle leg"

/-- `infer_breaks`, `data_expansion.py:350-373`, on the bounds parsed from the data names.  Simplification: bounds are values
(`none` for the text `None`); functions with fewer than two terms and unbounded legs in the middle are reported as errors
(the code would put `None` among the breaks). -/
def inferBreaks {α : Type} [DecidableEq α] (fun_ : List (Option α × Option α)) : Except String (List α) :=
  match fun_ with
  | (none, some b0) :: rest =>
    match rest.getLast? with
    | none => .error "fewer than two legs"
    | some (lo, hi) =>
      match inferMid [b0] b0 rest.dropLast with
      | .error e => .error e
      | .ok (acc, last) =>
        if lo ≠ some last then .error "NotImplementedError"
        else if hi ≠ none then .error "NotImplementedError"
        else .ok acc
  | (some _, _) :: _ => .error "NotImplementedError"
  | _ => .error "fewer than two legs"

/-- `hard_sigmoid`, `data_expansion.py:206-229`. -/
noncomputable def hardSigmoid (x zero one : ℝ) : ℝ :=
  if zero < one then clip ((x - zero) / (one - zero)) 0 1
  else if zero = one then (if x > zero then 1 else 0)
  else clip ((zero - x) / (zero - one)) 0 1

/-! ## periodize -/

/-- An entry of the mapping: label, lower and upper bound (`None` = unbounded). -/
structure Period (κ : Type) where
  label : κ
  lower : Option ℝ
  upper : Option ℝ

open Classical in
/-- `lop(values, lowerbound) & rop(values, upperbound)`, `data_manipulation.py:104-119`; a NaN value (`none`) is in no
interval. -/
noncomputable def inPeriod {κ : Type} (left right : Bool) (v : Option ℝ) (p : Period κ) : Bool :=
  match v with
  | none => false
  | some x =>
    (match p.lower with
      | none => true
      | some l => if left then decide (x ≥ l) else decide (x > l)) &&
    (match p.upper with
      | none => true
      | some u => if right then decide (x ≤ u) else decide (x < u))

/-- `periodize` for one value, `data_manipulation.py:91-124`: `mapping` then keyword arguments, later assignments
overwrite. -/
noncomputable def periodize {κ : Type} (mapping kwargs : List (Period κ)) (default : κ) (left right : Bool)
    (v : Option ℝ) : κ :=
  (mapping ++ kwargs).foldl (fun x p => if inPeriod left right v p then p.label else x) default

/-- The caller's list after the call: `mapping.extend(kwargs.items())` works on the list that was passed in,
`data_manipulation.py:91-97`. -/
def periodizeCallerList {κ : Type} (mapping kwargs : List (Period κ)) : List (Period κ) := mapping ++ kwargs

/-! ## Label lookups -/

/-- `numpy.digitize(x, bins, right=True)` for increasing bins: the number of bins below `x`. -/
def digitize {α : Type} [LinearOrder α] (bins : List α) (x : α) : Nat := (bins.filter (fun b => decide (b < x))).length

/-- `is_sorted_and_unique`, `arraytools.py:8-10`. -/
def isSortedAndUnique {α : Type} [LinearOrder α] : List α → Bool
  | [] => true
  | [_] => true
  | a :: b :: l => decide (a < b) && isSortedAndUnique (b :: l)

/-- `label_to_index` for one looked-up value, `arraytools.py:16-57`.  `uniq_indexes` is the inverse returned by
`numpy.unique` (position of each label among the sorted labels).  The error message of the duplicate branch uses an undefined
name. Indexing beyond the end raises IndexError.  The empty label list (returned unchanged) is an error here. -/
def labelToIndex {α : Type} [LinearOrder α] (labels : List α) (v : α) : Except String Nat :=
  if labels = [] then .error "empty labels returned unchanged"
  else if isSortedAndUnique labels then .ok (digitize labels v)
  else
    let u := uniq labels
    let inverse := labels.map (fun l => u.idxOf l)
    if u.length ≠ labels.length then .error "NameError"
    else match inverse[digitize u v]? with
      | some i => .ok i
      | none => .error "IndexError"

/-- `labels_to_unique_ids`, `arraytools.py:61-84`. -/
def labelsToUniqueIds {α : Type} [LinearOrder α] (labels : List α) (lowest : Nat) : List α × List Nat :=
  (uniq labels, labels.map (fun l => (uniq labels).idxOf l + lowest))

/-- `convert_float_to_int_if_lossless`, `arraytools.py:127-135`, for arrays of fewer than 100 elements (the other branch
first tests a prefix; the outcome is the same): `cast` is the platform's float to int32 conversion, `none` means the array was
returned unchanged. -/
noncomputable def convertIfLossless (cast : ℝ → Int) (arr : List ℝ) : Option (List Int) := by
  classical
  exact if ∀ x ∈ arr, ∃ k : Int, x = k then some (arr.map cast) else none

/-! ## One-hot -/

/-- One row of `to_categorical`, `data_expansion.py:11-58`: row `i` has a one at the position of its value among the unique
values. -/
def oneHotRow {α : Type} [LinearOrder α] (arr : List α) (v : α) : List Nat :=
  (List.range (uniq arr).length).map (fun j => if j = (uniq arr).idxOf v then 1 else 0)

/-- Column labels, `data_expansion.py:58-97`: the unique values, formatted by `fmt` (`f'{name}=={value}'`). -/
def oneHotColumns {α : Type} [LinearOrder α] (fmt : α → String) (arr : List α) : List String := (uniq arr).map fmt

/-- One row of `categorical_compression`, `data_expansion.py:101-142`: start from NaN (`none`), for every column whose entry is 1
assign the column label. -/
def compressRow (columns : List String) (row : List Nat) : Option String :=
  (columns.zip row).foldl (fun r c => if c.2 = 1 then some c.1 else r) none

/-! ## ratio_min -/

/-- `ratio_min`, `data_expansion.py:444-503`: rows are `(case code, value)`; divide by the minimum over rows of the same case, a
zero minimum being replaced by 1. -/
noncomputable def ratioMin (rows : List (Nat × ℝ)) : List ℝ :=
  rows.map (fun r =>
    let m := ((rows.filter (fun q => q.1 = r.1)).map Prod.snd).foldl min r.2
    r.2 / (if m = 0 then 1 else m))

/-! ## Ranks -/

/-- One row of `probability_to_rank`, `scoring.py:28-52`; `order` is the result of `argsort`.  `ranks[temp[pos]] = n - pos`. -/
def rankRow (order : List Nat) (j : Nat) : Nat := order.length - order.idxOf j

/-- `top_k_accuracy` for one integer `k`, `scoring.py:55-82`, on the flattened (rank, choice) pairs. -/
noncomputable def topK (cells : List (Nat × ℝ)) (k : Nat) : ℝ := by
  classical
  exact ((cells.filter (fun c => decide (c.2 > 0))).map (fun c => (if c.1 ≤ k then 1 else 0) * c.2)).sum /
    (cells.map Prod.snd).sum

end Larch.Util
