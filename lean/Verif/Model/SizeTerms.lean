import Mathlib.Analysis.SpecialFunctions.Log.Basic

/-!
# Size terms of an ActivitySim location choice model (`larch/util/activitysim/location_choice.py`)

The size specification gives for every segment of choosers and every field of the land use table how much the field counts.  Values are real numbers
(missing values, which `stack` drops, are left out).  Tables have unique labels.
-/

namespace Larch.SizeTerms

open Classical

/-- The size specification of one location choice, indexed by segment. -/
structure Spec where
  segs : List String
  fields : List String
  val : String → String → ℝ

/-- `size_spec.loc[:, size_spec.max() > 0]`, line 77. -/
noncomputable def kept (S : Spec) : List String := S.fields.filter (fun q => decide (∃ i ∈ S.segs, 0 < S.val i q))

/-- The name of a coefficient, lines 24 and 103. -/
def label (i q : String) : String := i ++ "_" ++ q

/-- `size_spec.stack()` without what is not positive, lines 23-25. -/
noncomputable def stacked (S : Spec) : List (String × String × ℝ) :=
  (S.segs.flatMap (fun i => (kept S).map (fun q => (i, q, S.val i q)))).filter (fun r => decide (0 < r.2.2))

/-- `groupby('segment').first()`, line 27, and the labels made of it, line 28. -/
noncomputable def heldLabels (S : Spec) : List String :=
  S.segs.filterMap (fun i => ((stacked S).find? (fun r => r.1 == i)).map (fun r => label r.1 r.2.1))

/-- A row of the coefficients, with the bounds of line 110. -/
structure Coef where
  name : String
  value : ℝ
  hold : Bool
  min : ℝ
  max : ℝ

/-- `size_coefficients_from_spec`, lines 22-33, and line 110. -/
noncomputable def coefs (S : Spec) : List Coef :=
  (stacked S).map (fun r => ⟨label r.1 r.2.1, Real.log r.2.2, (heldLabels S).contains (label r.1 r.2.1), -6, 6⟩)

/-- The settings of a parameter after `apply_coefficients` (`larch/util/activitysim/general.py:262-274`): the last row with its name. -/
noncomputable def applied (S : Spec) (n : String) : Option Coef := (coefs S).reverse.find? (fun c => c.name == n)

/-- Its value; parameters that are not in the table keep the default 0. -/
noncomputable def start (S : Spec) (n : String) : ℝ := ((applied S n).map Coef.value).getD 0

/-- A term of `quantity_ca`, lines 102-107: parameter, field, number of the segment. -/
structure Term where
  param : String
  field : String
  seg : Int

/-- Lines 102-107; `none` for the `KeyError` of a segment that has no number. -/
noncomputable def terms (S : Spec) (ids : List (String × Int)) : Option (List Term) :=
  if S.segs.all (fun i => decide (∀ q ∈ kept S, S.val i q = 0) || (ids.lookup i).isSome) then
    some (S.segs.flatMap (fun i => ((kept S).filter (fun q => decide (S.val i q ≠ 0))).map (fun q => ⟨label i q, q, (ids.lookup i).getD 0⟩)))
  else none

/-- What the model computes for `quantity_ca` (C101): the parameters are logarithms.  `seg` is the chooser's segment, `d` the land use of the zone. -/
noncomputable def quantity (ts : List Term) (pv : String → ℝ) (seg : Int) (d : String → ℝ) : ℝ :=
  (ts.map (fun t => Real.exp (pv t.param) * (d t.field * if seg = t.seg then 1 else 0))).sum

/-- A chooser: segment and observed choice. -/
structure Chooser where
  seg : Int
  choice : Int

/-- `SEGMENT_IDS_REVERSE`, line 118: later entries replace earlier ones. -/
def segLabel (ids : List (String × Int)) (x : Int) : Option String := (ids.reverse.find? (fun e => e.2 == x)).map Prod.fst

/-- Total size of a segment in a zone, lines 122-127. -/
noncomputable def totalSize (S : Spec) (i : String) (d : String → ℝ) : ℝ := ((kept S).map (fun q => d q * S.val i q)).sum

/-- Lines 117-135: the size of the observed zone for the chooser's own segment. -/
noncomputable def sizeOf (S : Spec) (ids : List (String × Int)) (landuse : Int → Option (String → ℝ)) (c : Chooser) : ℝ :=
  match segLabel ids c.seg, landuse c.choice with
  | some i, some d => if i ∈ S.segs then totalSize S i d else 0
  | _, _ => 0

/-- Lines 117-139: the choosers that are kept.  `none` for an exception: a segment number that is not in the settings (line 119) or an observed zone that is not in
the land use table (line 127, if there is any segment). -/
noncomputable def keep (S : Spec) (ids : List (String × Int)) (landuse : Int → Option (String → ℝ)) (cs : List Chooser) : Option (List Chooser) :=
  if cs.all (fun c => (segLabel ids c.seg).isSome && (decide (S.segs = []) || (landuse c.choice).isSome)) then
    some (cs.filter (fun c => decide (0 < sizeOf S ids landuse c)))
  else none

end Larch.SizeTerms
