import Verif.Model.Shares
import Mathlib.Data.List.Dedup

/-!
# The numbers drawn by `distribution_figure` (`larch/util/figures.py:44-300`) and `pseudo_bar_data` (`figures.py:8-40`)

Over an ordered field; `none` is NaN.  Kernel densities, `range`, axes and formats are not modelled.
-/

namespace Larch.DistFig

open Larch.Shares

variable {K : Type} [Field K] [LinearOrder K]

/-- The widths of bins, `numpy.diff(edges)`. -/
def widths (edges : List K) : List K := List.zipWith (fun a b => b - a) edges edges.tail

/-- `numpy.histogram(x, weights, bins=edges, density=True)`: `n / db / n.sum()`. -/
def density (edges : List K) (d : List (K × K)) : List (Option K) :=
  List.zipWith (fun h w => (divide h w).bind (fun q => divide q (hist d edges).sum)) (hist d edges) (widths edges)

/-- Sum with NaN. -/
def total : List (Option K) → Option K
  | [] => some 0
  | none :: _ => none
  | some a :: l => (total l).map (fun s => a + s)

def both (f : K → K → K) : Option K → Option K → Option K
  | some a, some b => some (f a b)
  | _, _ => none

/-- `numpy.minimum(y1, y2).sum() / numpy.maximum(y1, y2).sum()`, `figures.py:225-226`. -/
def coincidence (y1 y2 : List (Option K)) : Option K :=
  match total (List.zipWith (both min) y1 y2), total (List.zipWith (both max) y1 y2) with
  | some a, some b => divide a b
  | _, _ => none

/-- `cumsum`. -/
def cumsum (acc : K) : List K → List K
  | [] => []
  | a :: l => (acc + a) :: cumsum (acc + a) l

/-- The net cumulative trend `(y1 - y2).cumsum()`, `figures.py:233`. -/
def netCum (y1 y2 : List K) : List K := cumsum 0 (List.zipWith (fun a b => a - b) y1 y2)

/-- The name in the legend of the area drawn where the trend is `c`, `figures.py:236-237`: the area of `fmin(cum_sum, 0)` is named
`prob_label`, that of `fmax(cum_sum, 0)` is named `obs_label`. -/
def ahead (probLabel obsLabel : String) (c : K) : Option String :=
  if c < 0 then some probLabel else if 0 < c then some obsLabel else none

/-- The variable: the codes of a categorical one, or numbers. -/
inductive Var (K : Type) where
  | categorical (n : Nat) (codes : List Nat)
  | numbers (x : List K)

/-- The number of distinct values (those that occur, also of a categorical variable, which is made an array first), `figures.py:118-122` with
`seems_like_discrete_data` of `histograms.py:527-553`. -/
def distinct : Var K → Nat
  | .categorical n codes => ((List.range n).filter (fun c => c ∈ codes)).length
  | .numbers x => x.dedup.length

/-- The labels of the axis: as many as distinct values, `figures.py:117-124`. -/
def labelCount (discrete : Option Bool) (v : Var K) : Option Nat :=
  match discrete with
  | some true => some (distinct v)
  | some false => none
  | none => if distinct v < 6 then some (distinct v) else none

/-- The default bins, `figures.py:126-150`: those of the labels are replaced in the branch for numbers, which is an `else` of the test for categories only;
`len(None)` raises. -/
def defaultEdges (discrete : Option Bool) (pct : Nat) (v : Var K) : Except String (List K) :=
  match v with
  | .categorical _ _ =>
    match labelCount discrete v with
    | none => .error "TypeError"
    | some m => .ok ((List.range (m + 1)).map (fun (e : Nat) => (e : K)))
  | .numbers x => equalMass x pct

/-- The points of the line of `pseudo_bar_data(x_bins, y, gap)`, `figures.py:22-40`, by the strided assignments `x_doubled[::2]`, `x_doubled[1::2]` and so on. -/
def barPoints (edges y : List K) (gap : K) : List (K × K) :=
  if gap = 0 then (List.range ((edges.length - 1) * 2)).map (fun i => ((if i % 2 = 0 then edges.getD (i / 2) 0 else edges.getD (i / 2 + 1) 0), y.getD (i / 2) 0))
  else (List.range ((edges.length - 1) * 4)).map (fun i =>
    ((if i % 4 = 0 ∨ i % 4 = 1 then edges.getD (i / 4) 0 else edges.getD (i / 4 + 1) 0 - gap),
     (if i % 4 = 1 ∨ i % 4 = 2 then y.getD (i / 4) 0 else 0)))

end Larch.DistFig
