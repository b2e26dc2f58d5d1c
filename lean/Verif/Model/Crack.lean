import Mathlib.Analysis.Real.Sqrt
import Mathlib.Data.List.Sort

/-!
# Separating what varies by case from what varies by alternative (`larch/dataframes.pyx`)

A frame of the alternatives is its columns (name, and whether it holds numbers) and its rows: label (case, alternative) and cells.  A missing value
is `none`.  The first level of the index is taken to have a name (pandas cannot group by a level without one).
-/

namespace Larch.Crack

/-- A frame of the alternatives. -/
structure Alts where
  cols : List (String × Bool)
  rows : List ((Int × Int) × List (Option ℝ))

/-- A frame of the cases. -/
structure Cases where
  cols : List (String × Bool)
  rows : List (Int × List (Option ℝ))

/-- The groups of `df.groupby([caseid_col])`: the cases that occur, increasing. -/
def caseIds (rows : List ((Int × Int) × List (Option ℝ))) : List Int := (rows.map (fun r => r.1.1)).dedup.insertionSort (· ≤ ·)

/-- The values of column `j` in the rows of case `c` that are not missing. -/
def present (rows : List ((Int × Int) × List (Option ℝ))) (c : Int) (j : Nat) : List ℝ :=
  (rows.filter (fun r => decide (r.1.1 = c))).filterMap (fun r => (r.2[j]?).join)

/-- The mean. -/
noncomputable def mean (l : List ℝ) : ℝ := l.sum / l.length

/-- `GroupBy.std()`: sample standard deviation of the values there are; missing for fewer than two. -/
noncomputable def std (l : List ℝ) : Option ℝ :=
  if l.length < 2 then none else some (Real.sqrt ((l.map (fun x => (x - mean l) ^ 2)).sum / (l.length - 1)))

/-- `g_std.any()`, line 261, for a column: some group's standard deviation is neither missing nor zero. -/
noncomputable def varies (rows : List ((Int × Int) × List (Option ℝ))) (j : Nat) : Bool :=
  (caseIds rows).any (fun c => (std (present rows c j)).any (fun s => !decide (s = 0)))

/-- Lines 262-263: `g.std()` has the columns of numbers only; those that do not vary are moved. -/
noncomputable def moved (f : Alts) (j : Nat) : Bool := ((f.cols[j]?).map Prod.snd).getD false && !varies f.rows j

/-- The positions of the columns moved. -/
noncomputable def movedCols (f : Alts) : List Nat := (List.range f.cols.length).filter (moved f)

/-- Line 264: the positions of the others. -/
noncomputable def keptCols (f : Alts) : List Nat := (List.range f.cols.length).filter (fun j => !moved f j)

/-- `GroupBy.first()`: the first value of the group that is not missing. -/
def first (rows : List ((Int × Int) × List (Option ℝ))) (c : Int) (j : Nat) : Option ℝ := (present rows c j).head?

/-- Columns at positions `js` of the frame. -/
def pick {α : Type} (js : List Nat) (l : List α) : List α := js.filterMap (fun j => l[j]?)

/-- `crack_idca`, lines 239-265: the frame without the columns moved, and the frame of the cases. -/
noncomputable def crack (f : Alts) : Alts × Cases :=
  (⟨pick (keptCols f) f.cols, f.rows.map (fun r => (r.1, pick (keptCols f) r.2))⟩,
   ⟨pick (movedCols f) f.cols, (caseIds f.rows).map (fun c => (c, (movedCols f).map (first f.rows c)))⟩)

/-! ## Weights -/

/-- Errors of Python. -/
inductive Err where
  | value
  | type
deriving DecidableEq

/-- `force_crack_idca` of a series of weights, lines 268-289: one value per case. -/
def forceCrack (w : List ((Int × Int) × Option ℝ)) : List (Int × Option ℝ) :=
  (caseIds (w.map (fun r => (r.1, [r.2])))).map (fun c => (c, first (w.map (fun r => (r.1, [r.2]))) c 0))

/-- Lines 650-653: weights given as a series with a row for each row of the alternatives.  The setter (1854-1858) accepts as many rows as there are
cases; otherwise the `ValueError` of its reshape leads to `force_crack_idca`, whose result must fit. -/
def setWeights (nCases : Nat) (w : List ((Int × Int) × Option ℝ)) : Except Err (List (Int × Option ℝ)) :=
  if w.length = nCases then .ok (w.map (fun r => (r.1.1, r.2)))
  else if (forceCrack w).length = nCases then .ok (forceCrack w) else .error .value

/-- `_, wt = series`: the two values of the series, if there are two. -/
def unpack2 {α : Type} (l : List α) : Except Err α :=
  match l with
  | [_, b] => .ok b
  | _ => .error .value

/-- Lines 591-596: weights named by a column of the alternatives' frame.  `_, wt = force_crack_idca(…)` takes apart what is a single series; then line
651 sets the weights, and the setter (51-56, 1857) refuses what is not a frame. -/
def namedWeights (w : List ((Int × Int) × Option ℝ)) : Except Err (List (Int × Option ℝ)) :=
  (unpack2 ((forceCrack w).map Prod.snd)).bind (fun _ => .error .type)

end Larch.Crack
