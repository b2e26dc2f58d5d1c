import Verif.Model.Ext
import Mathlib.Data.Real.Sqrt
import Mathlib.Data.List.Sort

/-!
# Statistics of a column of data: `statistics_for_array` (`larch/util/statistics.py:12-197`)

For numeric arrays with one dimension.  `none` is the masked constant that numpy gives for an array without unmasked values.  The histogram and
values for chosen alternatives are left out.
-/

namespace Larch.ArrayStats

open Larch

/-- The result (the fields `nans` and `infs` are left out by the code when they are zero). -/
structure Stats where
  n : Nat
  minimum : Option ℝ
  maximum : Option ℝ
  median : Option ℝ
  mean : Option ℝ
  stdev : Option ℝ
  zeros : Nat
  positives : Nat
  negatives : Nat
  nans : Nat
  infs : Nat
  nonzeroMinimum : Option ℝ
  nonzeroMaximum : Option ℝ
  nonzeroMean : Option ℝ
  nonzeroStdev : Option ℝ

/-- `numpy.mean` of the unmasked values. -/
noncomputable def mean (xs : List ℝ) : Option ℝ := if xs = [] then none else some (xs.sum / xs.length)

/-- `numpy.std`: the mean of the squared distances from the mean, `ddof=0`. -/
noncomputable def stdev (xs : List ℝ) : Option ℝ :=
  (mean xs).map (fun m => Real.sqrt ((xs.map (fun x => (x - m) ^ 2)).sum / xs.length))

/-- `numpy.min`, `numpy.max`. -/
noncomputable def minOf (xs : List ℝ) : Option ℝ := xs.foldl (fun acc x => some (match acc with | none => x | some y => min y x)) none

noncomputable def maxOf (xs : List ℝ) : Option ℝ := xs.foldl (fun acc x => some (match acc with | none => x | some y => max y x)) none

/-- `numpy.ma.median`: the middle value in order, or the mean of the two middle values. -/
noncomputable def median (xs : List ℝ) : Option ℝ :=
  let s := xs.insertionSort (· ≤ ·)
  if xs = [] then none
  else if xs.length % 2 = 1 then s[xs.length / 2]?
  else (s[xs.length / 2 - 1]?).bind (fun a => (s[xs.length / 2]?).map (fun b => (a + b) / 2))

/-- Lines 105-112 and 170-187 for the unmasked values `xs`; `n`, `nans` and `infs` are computed elsewhere. -/
noncomputable def statsOf (n : Nat) (xs : List ℝ) (nans infs : Nat) : Stats :=
  let nz := xs.filter (fun x => decide (x ≠ 0))
  { n := n, minimum := minOf xs, maximum := maxOf xs, median := median xs, mean := mean xs, stdev := stdev xs,
    zeros := (xs.filter (fun x => decide (x = 0))).length, positives := (xs.filter (fun x => decide (0 < x))).length,
    negatives := (xs.filter (fun x => decide (x < 0))).length, nans := nans, infs := infs,
    nonzeroMinimum := minOf nz, nonzeroMaximum := maxOf nz, nonzeroMean := mean nz, nonzeroStdev := stdev nz }

/-- The finite values of an array. -/
def finOf : X → Option ℝ
  | .fin r => some r
  | _ => none

def finites (a : List X) : List ℝ := a.filterMap finOf

def isNan : X → Bool
  | .nan => true
  | _ => false

def isInf : X → Bool
  | .pinf => true
  | .ninf => true
  | _ => false

/-- `statistics_for_array(arr)`: the mask is `~numpy.isfinite(a)` (lines 91-93). -/
noncomputable def stats (a : List X) : Stats := statsOf (finites a).length (finites a) (a.filter isNan).length (a.filter isInf).length

/-- An availability array: of truth values or of whole numbers. -/
inductive AvailArray where
  | bools (l : List Bool)
  | ints (l : List Int)

/-- `~avail` as a mask, line 95: for whole numbers `~` inverts the bits, `~k = -k - 1`, and a mask is whatever is not zero. -/
def maskOf (av : AvailArray) : List Bool :=
  match av with
  | .bools l => l.map (fun b => !b)
  | .ints l => l.map (fun k => (-k - 1) != 0)

/-- `(avail != 0).sum()`, line 96. -/
def availCount (av : AvailArray) : Nat :=
  match av with
  | .bools l => (l.filter id).length
  | .ints l => (l.filter (fun k => k != 0)).length

/-- `statistics_for_array(arr, avail=avail)` for finite data; `none` if the lengths differ. -/
noncomputable def statsAvail (a : List ℝ) (av : AvailArray) : Option Stats :=
  if (maskOf av).length = a.length then
    some (statsOf (availCount av) (((a.zip (maskOf av)).filter (fun p => !p.2)).map Prod.fst) 0 0)
  else none

/-- `uniques(s)`, lines 297-332, without a dictionary: each value with its count, increasing, then the number of missing values unless it is zero. -/
def uniques {α : Type} [LinearOrder α] (s : List (Option α)) : List (Option α × Nat) :=
  let vals := s.filterMap (fun x => x)
  ((vals.dedup.insertionSort (· ≤ ·)).map (fun v => (some v, vals.count v))) ++
    (if s.length - vals.length = 0 then [] else [(none, s.length - vals.length)])

/-- `invmap(s, mapping)`, lines 335-358, for one value: the last key with the value, missing if there is none. -/
def invmap {α β : Type} [DecidableEq β] (m : List (α × β)) (v : β) : Option α := (m.reverse.find? (fun p => decide (p.2 = v))).map Prod.fst

end Larch.ArrayStats
