import Verif.Model.Shares
import Mathlib.Algebra.Order.Floor.Defs
import Mathlib.Data.List.Dedup

/-!
# The numbers of a histogram (`larch/util/histograms.py`, 11-200 and 405-470)

Over an ordered field (no rounding).  Drawing is left out.  Data are numbers, infinite or missing, each with a weight and a weight of
choice.  `numpy.percentile` of the data (all of them: it ignores the mask) is a parameter, `none` for NaN; so is the width that numpy's methods find for the bins.
With a fixed range that is open on a side, the data are taken to be finite on that side.
-/

namespace Larch.HistFig

open Larch.Shares

variable {K : Type} [Field K] [LinearOrder K]

/-- A number in an array. -/
inductive Num (K : Type) where
  | fin (v : K)
  | nan
  | pinf
  | ninf
deriving DecidableEq

/-- An entry of the data, with its weight and its weight of choice. -/
structure Rec (K : Type) where
  x : Num K
  w : K
  c : K

/-- The finite ones, with their values (line 14). -/
def finites (d : List (Rec K)) : List (K × Rec K) :=
  d.filterMap (fun r => match r.x with
    | .fin v => some (v, r)
    | _ => none)

/-- `(s == 0).sum()` (lines 17 and 58). -/
def zeros (d : List (Rec K)) : Nat := (d.filter (fun r => decide (r.x = .fin 0))).length

/-- `n_zeros / n_values > threshold` (lines 18 and 59); 0/0 is NaN. -/
def dropZeros (threshold : K) (nZeros n : Nat) : Bool := decide (n ≠ 0) && decide (threshold < (nZeros : K) / (n : K))

/-- The data without those masked as zeros (lines 19 and 60). -/
def unlessZero (drop : Bool) (l : List (K × Rec K)) : List (K × Rec K) := if drop then l.filter (fun p => decide (p.1 ≠ 0)) else l

/-- Mean of a list. -/
def meanOf (l : List K) : K := l.sum / (l.length : K)

/-- Variance of a list (`std` squared). -/
def varOf (l : List K) : K := (l.map (fun v => (v - meanOf l) ^ 2)).sum / (l.length : K)

/-- What `robust_min_max` and `fixed_min_max` give: the range, the marks, and the data that are left. -/
structure Found (K : Type) where
  bottom : K
  top : K
  dropped : Bool
  truncated : K
  kept : List (K × Rec K)
  under : Option K
  over : Option K

/-- A limit replaced by a percentile (lines 34-46): the limit, and what is added to `range_is_truncated`. -/
def cutAt (pct : K) (far : Bool) (limit : K) (p : Option K) : K × K :=
  if 0 < pct ∧ far = true then (p.map (fun v => (v, pct))).getD (limit, 0) else (limit, 0)

/-- `robust_min_max` (lines 11-47).  `bottom < mean - cut * stdev` is written without the root. -/
def robust (threshold cut pct : K) (percentile : K → Option K) (d : List (Rec K)) : Found K :=
  let drop := dropZeros threshold (zeros d) (finites d).length
  let kept := unlessZero drop (finites d)
  match kept.map Prod.fst with
  | [] => ⟨0, 1, drop, 100, kept, some 0, some 0⟩
  | a :: l =>
    let lo := l.foldl min a
    let hi := l.foldl max a
    let m := meanOf (a :: l)
    let b := cutAt pct (decide (lo < m) && decide (cut ^ 2 * varOf (a :: l) < (m - lo) ^ 2)) lo (percentile pct)
    let t := cutAt pct (decide (m < hi) && decide (cut ^ 2 * varOf (a :: l) < (hi - m) ^ 2)) hi (percentile (100 - pct))
    ⟨b.1, t.1, drop, b.2 + t.2, kept, some 0, some 0⟩

/-- The number that is not missing (line 55). -/
def present (d : List (Rec K)) : List (Rec K) := d.filter (fun r => decide (r.x ≠ .nan))

/-- `sx >= fixed_max` (line 68), if there is one. -/
def isOver (hi : Option K) (x : Num K) : Bool :=
  match hi, x with
  | none, _ => false
  | some _, .pinf => true
  | some h, .fin v => decide (h ≤ v)
  | _, _ => false

/-- `sx <= fixed_min` (line 74), if there is one. -/
def isUnder (lo : Option K) (x : Num K) : Bool :=
  match lo, x with
  | none, _ => false
  | some _, .ninf => true
  | some l, .fin v => decide (v ≤ l)
  | _, _ => false

/-- Lines 52-63: what is left before the limits. -/
def unmasked (threshold : K) (d : List (Rec K)) : List (Rec K) :=
  if dropZeros threshold (zeros d) (present d).length then (present d).filter (fun r => decide (r.x ≠ .fin 0)) else present d

/-- `fixed_min_max` (lines 50-81) and lines 88-95; `eps` is 1e-8.  `none` if the range is open and nothing is left. -/
def fixed (threshold eps : K) (lo hi : Option K) (d : List (Rec K)) : Option (Found K) :=
  let m := unmasked threshold d
  let u := m.filter (fun r => !isOver hi r.x)
  let v := u.filter (fun r => !isUnder lo r.x)
  let n := (present d).length
  let over := divide ((m.length - u.length : Nat) : K) (n : K)
  let under := divide ((u.length - v.length : Nat) : K) (n : K)
  let kept := finites v
  let bottom := match lo with
    | some b => some b
    | none => (kept.map Prod.fst).head?.map (fun a => (kept.map Prod.fst).foldl min a - eps)
  let top := match hi with
    | some t => some t
    | none => (kept.map Prod.fst).head?.map (fun a => (kept.map Prod.fst).foldl max a + eps)
  bottom.bind (fun b => top.map (fun t =>
    ⟨b, t, dropZeros threshold (zeros d) n, (((under.getD 0) + (over.getD 0)) * 100), kept, under, over⟩))

/-- The argument `bins`: a number, edges, or the name of a method, with the width it finds (`none`: NaN, or an exception for empty data). -/
inductive BinsArg (K : Type) where
  | number (n : Nat)
  | edges (l : List K)
  | method (width : Option K)

/-- Lines 103-112. -/
def limits (maxrange : Option (K × K)) (b t : K) : K × K :=
  let b' := match maxrange with
    | some m => if b < m.1 then m.1 else b
    | none => b
  let t' := match maxrange with
    | some m => if m.2 < t then m.2 else t
    | none => t
  if t' < b' then (t', b') else (b', t')

/-- Lines 115-134. -/
def clamp (n : Int) : Nat := if 50 < n then 50 else if n < 10 then 10 else n.toNat

/-- Lines 115-134: the number of edges for the name of a method. -/
def methodBins [FloorRing K] (width : Option K) (b t : K) : Nat :=
  let w := width.getD 1
  if w = 0 then clamp 1 else clamp ⌈(t - b) / w⌉

/-- `numpy.linspace(bottom, top, num=n)` (line 139). -/
def linspace (b t : K) (n : Nat) : List K := (List.range n).map (fun (i : Nat) => b + (i : K) * ((t - b) / ((n : K) - 1)))

/-- `get_histogram_bins` (lines 84-143), after the range is known: edges. -/
def binEdges [FloorRing K] (bins : BinsArg K) (b t : K) : List K :=
  match bins with
  | .number n => linspace b t n
  | .edges l => l
  | .method w => linspace b t (methodBins w b t)

/-- The arguments of `histogram_data`. -/
structure Args (K : Type) where
  bins : BinsArg K
  weighted : Bool := false
  choices : Bool := false
  density : Bool := false
  pct : K
  maxrange : Option (K × K) := none
  fixedrange : Option (Option K × Option K) := none
  threshold : K

/-- The heights, edges and marks. -/
structure Out (K : Type) where
  heights : List (Option K)
  edges : List K
  dropped : Bool
  truncated : K
  chosen : Option (List (Option K))
  under : Option K
  over : Option K

/-- Lines 85-92: the range.  `defaultThreshold` is that of `robust_min_max`: the argument is not passed on. -/
def rangeOf (defaultThreshold cut eps : K) (percentile : K → Option K) (a : Args K) (d : List (Rec K)) : Option (Found K) :=
  match a.fixedrange with
  | none => some (robust defaultThreshold cut a.pct percentile d)
  | some r => fixed a.threshold eps r.1 r.2 d

/-- The weighted data that are left (lines 147-160). -/
def dataOf (weighted : Bool) (l : List (K × Rec K)) : List (K × K) := l.map (fun p => (p.1, if weighted then p.2.w else 1))

/-- Those of the choices. -/
def choicesOf (l : List (K × Rec K)) : List (K × K) := l.map (fun p => (p.1, p.2.c))

/-- `numpy.diff(edges)`. -/
def stepsOf (edges : List K) : List K := List.zipWith (fun a b => b - a) edges edges.tail

/-- `h / db / total`. -/
def perWidth (h : List K) (edges : List K) (total : K) : List (Option K) :=
  List.zipWith (fun a b => (divide a b).bind (fun q => divide q total)) h (stepsOf edges)

/-- `histogram_data` (lines 163-200). -/
def histogramData [FloorRing K] (defaultThreshold cut eps : K) (percentile : K → Option K) (a : Args K) (d : List (Rec K)) : Except String (Out K) :=
  match rangeOf defaultThreshold cut eps percentile a d with
  | none => .error "ValueError"
  | some f =>
    let edges := binEdges a.bins (limits a.maxrange f.bottom f.top).1 (limits a.maxrange f.bottom f.top).2
    (histogram edges (dataOf a.weighted f.kept)).bind (fun h =>
      let ch := hist (choicesOf f.kept) edges
      if a.density then
        if a.choices then
          let total := if a.fixedrange.isSome then (if a.weighted then (d.map Rec.w).sum else (d.length : K)) else h.sum
          let chTotal := if a.fixedrange.isSome then (d.map Rec.c).sum else ch.sum
          .ok ⟨perWidth h edges total, edges, f.dropped, f.truncated, some (perWidth ch edges chTotal), f.under, f.over⟩
        else .error "TypeError"
      else .ok ⟨h.map some, edges, f.dropped, f.truncated, if a.choices then some (ch.map some) else none, f.under, f.over⟩)

/-- A histogram of discrete data (lines 442-458): the values in order, and the heights. -/
def discreteBars (weighted choices : Bool) (d : List (K × Rec K)) : List K × List (Option K) × Option (List (Option K)) :=
  let labels := (d.map Prod.fst).dedup.insertionSort (fun a b => a ≤ b)
  let h := labels.map (fun v => ((d.filter (fun p => decide (p.1 = v))).map (fun p => if weighted then p.2.w else 1)).sum)
  let ch := labels.map (fun v => ((d.filter (fun p => decide (p.1 = v))).map (fun p => p.2.c)).sum)
  if choices then (labels, h.map (fun v => divide v h.sum), some (ch.map (fun v => divide v ch.sum))) else (labels, h.map some, none)

/-- Lines 429-439: the fixed range made of `piecerange` (`largest` is `data_to_bin.max()`), and the threshold. -/
def pieceRange (defaultThreshold eps largest : K) (piece : Option K × Option K) : Option (Option K × Option K) × K :=
  match piece with
  | (none, none) => (none, defaultThreshold)
  | (none, some h) => (some (none, some h), defaultThreshold)
  | (some _, none) => (some (some 0, some (largest + eps)), 100)
  | (some l, some h) => (some (some 0, some (h - l)), 100)

/-- `seems_like_discrete_data(arr)` without dictionary (lines 544-553). -/
def seemsDiscrete {α : Type} [DecidableEq α] (arr : List α) : Bool :=
  decide ((arr.take 100).dedup.length < 6) && decide ((arr.take 1000).dedup.length < 6) && decide (arr.dedup.length < 6)

/-- With a dictionary (lines 555-569). -/
def seemsDiscreteWith {α : Type} [DecidableEq α] (arr keys : List α) : Bool := !decide (2 < (arr.dedup.filter (fun v => decide (v ∉ keys))).length)

end Larch.HistFig
