import Mathlib.Algebra.Order.Field.Basic
import Mathlib.Algebra.BigOperators.Group.Finset.Basic
import Mathlib.Tactic.NormNum

/-!
# Case weights of a `DataFrames` object (`larch/dataframes.pyx:1414-1418, 2867-3023`)

The arrays `_array_ch`, `_array_wt` share memory with the frames `data_ch`, `data_wt`; one copy is kept here.  Numbers are elements of a
linearly ordered field `K` (the theorems use `ℝ`, the witnesses `ℚ`): no rounding, no NaN (the branch that re-adds weights without NaN,
2981-2982, is left out).  Cython raises `ZeroDivisionError` for a float division by zero in these functions (no `cdivision`), and
`AttributeError` when `data_wt` was never set (`_array_wt` is an uninitialised memoryview).  Logging is left out.
-/

namespace Larch.Weights

variable {K : Type} [Field K] [LinearOrder K]

/-- What can be raised. -/
inductive Err
  | zeroDivision
  | noWeights
  | noCases
  deriving DecidableEq, Repr

/-- The part of a `DataFrames` that concerns weights: `ch i j` is the choice of alternative `j` in case `i`, `wt` is `none` when there is no
weight data, `norm` is `_weight_normalization`. -/
structure W (K : Type) where
  nCases : Nat
  nAlts : Nat
  ch : Nat → Nat → K
  wt : Option (Nat → K)
  norm : K

/-- The running total of lines 2891-2893 (and 2908-2910): `temp += _array_ch[i,j]` for `j` in `range(n)`. -/
def rowTotal (row : Nat → K) (n : Nat) : K := (List.range n).foldl (fun t j => t + row j) 0

/-- Line 2894: does the choice of case `i` carry something other than a total of one? -/
def offTotal (t : K) : Bool := decide (t < 99999999 / 100000000) || decide (t > 100000001 / 100000000)

/-- Lines 2890-2896: the first case whose choices do not add up to one (`break`), if any. -/
def firstOff (w : W K) : Option Nat := (List.range w.nCases).find? (fun i => offTotal (rowTotal (w.ch i) w.nAlts))

/-- Lines 2898-2904: `data_wt` set to ones when there was none. -/
def ensureWt (w : W K) : W K := match w.wt with
  | none => { w with wt := some (fun _ => 1) }
  | some _ => w

/-- Lines 2908-2915, one turn of the `while` loop at case `i`. -/
def extractOne (w : W K) (i : Nat) : W K :=
  let temp := rowTotal (w.ch i) w.nAlts
  let ch := if temp ≠ 0 then fun i' j => if i' = i then w.ch i j / temp else w.ch i' j else w.ch
  { w with ch := ch, wt := w.wt.map (fun wt i' => if i' = i then wt i * temp else wt i') }

/-- Lines 2890-2915 of `scale_weights`, 2950-2975 of `autoscale_weights`: move weights embedded in the choices to the weights, from
the first case with such a weight on. -/
def extract (w : W K) : W K := match firstOff w with
  | none => w
  | some i0 => (List.range' i0 (w.nCases - i0)).foldl extractOne (ensureWt w)

/-- Lines 2920-2925 (2985-2988): divide all weights by the level, multiply the normalization.  The first division raises when the level is zero, before
anything is changed; with no cases there is no division. -/
def rescale (w : W K) (wt : Nat → K) (level : K) : W K × Except Err K :=
  if level = 0 ∧ w.nCases ≠ 0 then (w, .error .zeroDivision)
  else ({ w with wt := some (fun i => wt i / level), norm := w.norm * level }, .ok level)

/-- `DataFrames.scale_weights`, lines 2867-2930. -/
def scaleWeights (w : W K) (scale : K) : W K × Except Err K :=
  let w := extract w
  match w.wt with
  | none => if scale = 1 then (w, .ok 1) else (w, .error .noWeights)
  | some wt => rescale w wt scale

/-- `_array_wt.base.sum()`. -/
def wtSum (w : W K) (wt : Nat → K) : K := ∑ i ∈ Finset.range w.nCases, wt i

/-- `DataFrames.autoscale_weights`, lines 2932-2993.  With no cases the level is `0/0`, a NaN; represented by an error. -/
def autoscaleWeights (w : W K) : W K × Except Err K :=
  let w := extract w
  match w.wt with
  | none => (w, .ok 1)
  | some wt => if w.nCases = 0 then (w, .error .noCases) else rescale w wt (wtSum w wt / w.nCases)

/-- `DataFrames.unscale_weights`, lines 2995-3007.  `norm /= norm` raises when the normalization is zero, after the weights were
multiplied. -/
def unscaleWeights (w : W K) : W K × Except Err K :=
  match w.wt with
  | none => (w, .error .noWeights)
  | some wt =>
    let w' := { w with wt := some (fun i => wt i * w.norm) }
    if w.norm = 0 then (w', .error .zeroDivision) else ({ w' with norm := w.norm / w.norm }, .ok w.norm)

/-- `DataFrames.total_weight`, lines 1414-1418. -/
def totalWeight (w : W K) : K := match w.wt with
  | none => w.nCases
  | some wt => wtSum w wt * w.norm

/-- The calls a user can make on the weights. -/
inductive Call (K : Type)
  | scale (s : K)
  | autoscale
  | unscale

/-- The state after a call, whether or not it raised. -/
def call (w : W K) : Call K → W K
  | .scale s => (scaleWeights w s).1
  | .autoscale => (autoscaleWeights w).1
  | .unscale => (unscaleWeights w).1

/-- What a call returns or raises. -/
def callOut (w : W K) : Call K → Except Err K
  | .scale s => (scaleWeights w s).2
  | .autoscale => (autoscaleWeights w).2
  | .unscale => (unscaleWeights w).2

/-- The weight with which case `i` enters a computation (`_array_wt[i]`, or 1; `larch/model/mnl.pyx:594-597`). -/
def caseWt (w : W K) (i : Nat) : K := match w.wt with
  | none => 1
  | some wt => wt i

end Larch.Weights
