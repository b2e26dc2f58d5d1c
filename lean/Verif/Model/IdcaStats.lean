import Verif.Model.Shares

/-!
# Statistics of an idca variable (`larch/datastats.py`)

`idca_statistics_data` (63-184) with a choice and an integer number of bins, over an ordered field, but for the densities (see `Kde`).  Cases have a weight, and by alternative a
value, an availability and a choice; there is no NaN.  The drawing of `idca_statistics` (187-358) is not modelled.
-/

namespace Larch.IdcaStats

open Larch.Shares (hist divide)

variable {K : Type} [Field K] [LinearOrder K]

structure Case (K : Type) where
  wt : K
  x : Nat → K
  av : Nat → K
  ch : Nat → K

/-- `var.mean(var.CASEID)` of alternative `k`, line 90. -/
def mean (cases : List (Case K)) (k : Nat) : Option K := divide ((cases.map (fun c => c.x k)).sum) (cases.length : K)

/-- Point `j` of `np.linspace(lo, hi, n)`. -/
def linspace (lo hi : K) (n j : Nat) : K := lo + (j : K) * ((hi - lo) / ((n - 1 : Nat) : K))

/-- All values, of all alternatives. -/
def values (cases : List (Case K)) (alts : Nat) : List K := cases.flatMap (fun c => (List.range alts).map c.x)

/-- The least and the greatest value (of all, with those not available): the range of `np.histogram` (when they differ; numpy widens it otherwise). -/
def span (cases : List (Case K)) (alts : Nat) : K × K := (((values cases alts).min?).getD 0, ((values cases alts).max?).getD 1)

/-- The edges, lines 107-109: `nb` bins of equal width. -/
def edges (s : K × K) (nb : Nat) : List K := (List.range (nb + 1)).map (linspace s.1 s.2 (nb + 1))

/-- `np.repeat(l, resolution)`. -/
def spread (r : Nat) (l : List K) : List K := l.flatMap (fun v => List.replicate r v)

/-- The column `Frequency` of an alternative, lines 122-128. -/
def frequency (e : List K) (r : Nat) (cases : List (Case K)) (k : Nat) : List K :=
  spread r (hist (cases.map (fun c => (c.x k, c.av k * c.wt))) e) ++ [0]

/-- The column `FrequencyChosen`, lines 134-143. -/
def frequencyChosen (e : List K) (r : Nat) (cases : List (Case K)) (k : Nat) : List K :=
  spread r (hist (cases.map (fun c => (c.x k, c.ch k * c.av k * c.wt))) e) ++ [0]

/-- The values of the variable that the rows are for, lines 116, 171-176: `np.linspace(bins[0], bins[-1], resolution * len(bins))`. -/
def points (s : K × K) (nb r : Nat) : List K := (List.range (r * (nb + 1))).map (linspace s.1 s.2 (r * (nb + 1)))

/-- The rows of an alternative in the data of the figure: value and frequency (none: not there). -/
def plotted (s : K × K) (nb r : Nat) (cases : List (Case K)) (k : Nat) : List (K × Option K) :=
  (List.range (r * (nb + 1))).map (fun j => (linspace s.1 s.2 (r * (nb + 1)) j, (frequency (edges s nb) r cases k)[j]?))

/-- The factor of `DensityChosen` with `scale_ch`, line 149. -/
def chosenScale (cases : List (Case K)) (k : Nat) : Option K :=
  divide ((cases.map (fun c => c.ch k * c.wt)).sum) ((cases.map (fun c => c.av k * c.wt)).sum)

end Larch.IdcaStats
