import Mathlib.Analysis.Real.Sqrt
import Mathlib.Algebra.BigOperators.Group.List.Basic
import Mathlib.Data.List.GetD

/-!
# Standardized data (`larch/dataframes.pyx:2812-2866, 3557-3582`)

Tables as functions of row and column; real numbers (no NaN, no rounding).  A column whose values are all masked, for which `numpy.ma` gives a masked
mean, gets a mean of zero here (such columns are excluded in the theorems).
-/

namespace Larch.Standardize

/-- A table of data. -/
structure T where
  nRows : Nat
  nCols : Nat
  x : Nat → Nat → ℝ

/-- Lines 3560-3566: `numpy.ma.masked_array(X, mask)` takes a mask of one element for all, a mask with as many elements as `X` in the shape of `X`,
and raises `MaskError` for others; then the mask is broadcast as a column, which needs as many elements as `X` has rows (with a single row the
broadcast mask has another shape than `X` and `MaskError` is raised again). -/
def alignMask (nRows nCols : Nat) (mask : List Bool) : Option (Nat → Nat → Bool) :=
  if mask.length = 1 then some (fun _ _ => mask.getD 0 false)
  else if mask.length = nRows * nCols then some (fun i j => mask.getD (i * nCols + j) false)
  else if mask.length = nRows then some (fun i _ => mask.getD i false)
  else none

/-- The values of a column that are not masked. -/
def colVals (t : T) (m : Nat → Nat → Bool) (j : Nat) : List ℝ := ((List.range t.nRows).filter (fun i => !(m i j))).map (fun i => t.x i j)

/-- `numpy.nanmean`. -/
noncomputable def mean (vs : List ℝ) : ℝ := vs.sum / vs.length

/-- `numpy.nanstd`. -/
noncomputable def std (vs : List ℝ) : ℝ := Real.sqrt ((vs.map (fun v => (v - mean vs) ^ 2)).sum / vs.length)

/-- `max(0)`. -/
noncomputable def maxL : List ℝ → ℝ
  | [] => 0
  | a :: l => l.foldl max a

/-- `min(0)`. -/
noncomputable def minL : List ℝ → ℝ
  | [] => 0
  | a :: l => l.foldl min a

/-- Line 3576: the column has the extremes 0 and/or 1. -/
def NonScale (vs : List ℝ) : Prop := (maxL vs = 0 ∨ maxL vs = 1) ∧ (minL vs = 0 ∨ minL vs = 1)

/-- A fitted scaler: the mean and the scale of each column. -/
structure Scaler where
  withMean : Bool
  withStd : Bool
  mean : Nat → ℝ
  scale : Nat → ℝ

open Classical in
/-- Lines 3570-3581. -/
noncomputable def fitCols (withMean withStd : Bool) (t : T) (m : Nat → Nat → Bool) : Scaler where
  withMean := withMean
  withStd := withStd
  mean := fun j => if withMean ∧ NonScale (colVals t m j) then 0 else Standardize.mean (colVals t m j)
  scale := fun j => if withStd ∧ NonScale (colVals t m j) then 1 else
    if std (colVals t m j) = 0 then 1 else std (colVals t m j)

/-- `StandardScalerExcludeUnitRange.fit`; `none` when it raises. -/
noncomputable def fit (withMean withStd : Bool) (t : T) (mask : List Bool) : Option Scaler :=
  (alignMask t.nRows t.nCols mask).map (fitCols withMean withStd t)

/-- `sklearn`'s `StandardScaler.transform`, one cell: subtract the mean, divide by the scale, if asked to. -/
noncomputable def cell (s : Scaler) (j : Nat) (v : ℝ) : ℝ :=
  let y := if s.withMean then v - s.mean j else v
  if s.withStd then y / (s.scale j) else y

/-- `sklearn`'s `StandardScaler.transform`. -/
noncomputable def transform (s : Scaler) (t : T) : T := ⟨t.nRows, t.nCols, fun i j => cell s j (t.x i j)⟩

/-- The data of a `DataFrames`: `av` is the flattened table of availability. -/
structure Data where
  av : List Bool
  ca : Option T
  co : Option T
  ce : Option T

/-- Fit and transform one part, if there is one; `none` when it raises. -/
noncomputable def part (withMean withStd : Bool) (mask : List Bool) : Option T → Option (Option T × Option Scaler)
  | none => some (none, none)
  | some t => (fit withMean withStd t mask).map (fun s => (some (transform s t), some s))

/-- The scalers kept in the object. -/
structure Scalers where
  ca : Option Scaler
  co : Option Scaler
  ce : Option Scaler

/-- `DataFrames.standardize(with_mean, with_std)`, lines 2847-2866: `none` is a call that returns, otherwise the part that raised.  The parts
done before stay standardized. -/
noncomputable def standardize (withMean withStd : Bool) (d : Data) : Data × Option String × Scalers :=
  let mask := d.av.map (fun a => !a)
  match part withMean withStd mask d.ca with
  | none => (d, some "data_ca", ⟨none, none, none⟩)
  | some (ca, sca) =>
    let d := { d with ca := ca }
    match part withMean withStd mask d.co with
    | none => (d, some "data_co", ⟨sca, none, none⟩)
    | some (co, sco) =>
      let d := { d with co := co }
      match part withMean withStd mask d.ce with
      | none => (d, some "data_ce", ⟨sca, sco, none⟩)
      | some (ce, sce) => ({ d with ce := ce }, none, ⟨sca, sco, sce⟩)

/-- Use a scaler on a part; a scaler that was never fitted raises (`NotFittedError`). -/
noncomputable def usePart : Option Scaler → Option T → Option (Option T)
  | _, none => some none
  | none, some _ => none
  | some s, some t => some (some (transform s t))

/-- `DataFrames.standardize(same_as=...)`, lines 2833-2845. -/
noncomputable def standardizeAs (s : Scalers) (d : Data) : Data × Option String :=
  match usePart s.ca d.ca with
  | none => (d, some "data_ca")
  | some ca =>
    let d := { d with ca := ca }
    match usePart s.co d.co with
    | none => (d, some "data_co")
    | some co =>
      let d := { d with co := co }
      match usePart s.ce d.ce with
      | none => (d, some "data_ce")
      | some ce => ({ d with ce := ce }, none)

end Larch.Standardize
