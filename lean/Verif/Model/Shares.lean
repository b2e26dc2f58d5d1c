import Mathlib.Algebra.Order.Field.Basic
import Mathlib.Algebra.BigOperators.Group.List.Basic
import Mathlib.Data.List.Sort

/-!
# Shares and distributions over bins of a variable (`larch/util/figures.py`)

The numbers behind `share_figure`, `distribution_on_idco_variable` and `distribution_figure`, over an ordered field (no rounding).  Shapes are taken to agree (the
code raises otherwise).  `none` stands for the quotient by zero, which numpy gives as NaN (or infinity).  Drawing, kernel densities and axis formatting
are not modelled.
-/

namespace Larch.Shares

variable {K : Type} [Field K] [LinearOrder K]

/-- The weight of the entries below `e`: `cw[sorting_x.searchsorted(e, 'left')]`. -/
def below (d : List (K × K)) (e : K) : K := ((d.filter (fun p => decide (p.1 < e))).map Prod.snd).sum

/-- The weight of the entries up to `e`: `cw[sorting_x.searchsorted(e, 'right')]`. -/
def upTo (d : List (K × K)) (e : K) : K := ((d.filter (fun p => decide (p.1 ≤ e))).map Prod.snd).sum

/-- The differences of consecutive edges of numpy's cumulative weights: all edges are searched from the left, the last from the right. -/
def hist (d : List (K × K)) : List K → List K
  | [] => []
  | [_] => []
  | [a, b] => [upTo d b - below d a]
  | a :: b :: c :: r => (below d b - below d a) :: hist d (b :: c :: r)

/-- `numpy.histogram(x, weights=w, bins=edges)` with an array of edges. -/
def histogram (edges : List K) (d : List (K × K)) : Except String (List K) :=
  if edges.Pairwise (fun a b => a ≤ b) then .ok (hist d edges) else .error "ValueError"

/-- `numpy.percentile(x, 100 * j / pct)`, linear interpolation. -/
def percentile (x : List K) (pct j : Nat) : K :=
  let s := x.insertionSort (fun a b => a ≤ b)
  let i := j * (s.length - 1) / pct
  s.getD i 0 + (s.getD (i + 1) (s.getD i 0) - s.getD i 0) * (((j * (s.length - 1) % pct : Nat) : K) / (pct : K))

/-- The equal-mass bins, `figures.py:727-730`: `numpy.percentile(x, numpy.linspace(0, 100, pct_bins + 1))`. -/
def equalMass (x : List K) (pct : Nat) : Except String (List K) :=
  if x = [] then .error "IndexError" else .ok ((List.range (pct + 1)).map (percentile x pct))

/-- The argument `bins`. -/
inductive Bins (K : Type) where
  | number (n : Nat)
  | edges (l : List K)

/-- A case: the value of the variable, the weight, and by column the probability and the choice. -/
structure Case (K : Type) where
  x : K
  wt : K
  pr : Nat → K
  ch : Nat → K

/-- The entries of a weighted histogram of some quantity of cases. -/
def entries (cases : List (Case K)) (q : Case K → K) : List (K × K) := cases.map (fun c => (c.x, q c * c.wt))

/-- Sum over columns. -/
def across (cols : List Nat) (f : Nat → K) : K := (cols.map f).sum

/-- `numerator / denominator`. -/
def divide (n d : K) : Option K := if d = 0 then none else some (n / d)

/-- The table of style `dataframe`: the labels of rows are the intervals from one edge (not included) to the next (included), by `IntervalIndex.from_breaks`. -/
structure Table (K : Type) where
  labels : List (K × K)
  modeled : List (Nat × List (Option K))
  observed : List (Nat × List (Option K))
  count : List K

/-- Whether a value is in the interval of a label (`closed='right'`, the default). -/
def inLabel (l : K × K) (v : K) : Bool := decide (l.1 < v) && decide (v ≤ l.2)

/-- The bins used: those given, or the equal-mass bins. -/
def binsOf (bins : Option (Bins K)) (pct : Nat) (x : List K) : Except String (Bins K) :=
  match bins with
  | some b => .ok b
  | none => (equalMass x pct).map .edges

/-- The table for shown columns: numerators by column, the denominators, `figures.py:762-805, 1061-1100`. -/
def table (edges : List K) (cases : List (Case K)) (cols : List Nat) (denPr denCh : Case K → K) : Table K :=
  { labels := edges.zip edges.tail
    modeled := cols.map (fun i => (i, List.zipWith divide (hist (entries cases (fun c => c.pr i)) edges) (hist (entries cases denPr) edges)))
    observed := cols.map (fun i => (i, List.zipWith divide (hist (entries cases (fun c => c.ch i)) edges) (hist (entries cases denCh) edges)))
    count := (List.range (edges.length - 1)).map (fun k => across cols (fun i => (hist (entries cases (fun c => c.pr i)) edges).getD k 0)) }

/-- The edges that reach the tables: integers fail at `from_breaks`, unsorted edges at `numpy.histogram`. -/
def usable (b : Bins K) : Except String (List K) :=
  match b with
  | .number _ => .error "TypeError"
  | .edges l => if l.Pairwise (fun a b => a ≤ b) then .ok l else .error "ValueError"

/-- `share_figure(x, probability, choices, weights, bins, pct_bins, exclude_alts, style='dataframe')`, `figures.py:593-815`, for `n` columns.
`exclude_alts` is not used by the code. -/
def shareFigure (bins : Option (Bins K)) (pct n : Nat) (_exclude : List Nat) (cases : List (Case K)) : Except String (Table K) :=
  ((binsOf bins pct (cases.map Case.x)).bind usable).map
    (fun edges => table edges cases (List.range n) (fun c => across (List.range n) c.pr) (fun c => across (List.range n) c.ch))

/-- The columns shown by `distribution_on_idco_variable`, `figures.py:1040-1060`: `nAlts` alternatives, then nests and the root (the last) when there are. -/
def shown (nAlts nCols : Nat) (nests : Bool) (exclude : List Nat) : List Nat :=
  (List.range nCols).filter (fun i => (decide (i < nAlts) || nests) && !(decide (nAlts < nCols) && decide (i + 1 = nCols)) && decide (i ∉ exclude))

/-- `model.distribution_on_idco_variable(x, bins, pct_bins, include_nests, exclude_alts, style='dataframe')`, `figures.py:912-1125`: `cases` have the
probabilities and choices of all columns, nests among them when included. -/
def onIdco (bins : Option (Bins K)) (pct nAlts nCols : Nat) (nests : Bool) (exclude : List Nat) (cases : List (Case K)) : Except String (Table K) :=
  ((binsOf bins pct (cases.map Case.x)).bind usable).map
    (fun edges => table edges cases (shown nAlts nCols nests exclude) (fun _ => 1) (fun _ => 1))

/-! ## Categories -/

/-- The values of a categorical variable as bins: `discrete_values` is what `numpy.unique(x)` gives with `discrete=True` (the categories that occur), and all
categories with `discrete=None`, `figures.py:710-726`. -/
def categoryEdges (nCategories : Nat) (codes : List Nat) (discrete : Bool) : List Nat :=
  List.range ((if discrete then ((List.range nCategories).filter (fun c => c ∈ codes)).length else nCategories) + 1)

end Larch.Shares
