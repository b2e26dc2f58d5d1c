import Mathlib.Data.Real.Basic
import Mathlib.Data.List.Sort
import Mathlib.Algebra.BigOperators.Group.List.Basic

/-!
# ActivitySim model builders: tour mode choice and non-mandatory tour frequency

`larch/util/activitysim/tour_mode_choice.py`, `larch/util/activitysim/nonmand_tour_freq.py`.  A row of the spec names a data expression and, per column, a
coefficient or nothing.  Data are real numbers, `x s` is the value of the expression `s` for a chooser (and alternative).  `none` is an exception.
Reading files, nesting and the attached data service are left out.
-/

namespace Larch.AsimModels

open Classical

/-- A row of the spec: label of the data, and coefficient by column. -/
structure Row where
  label : String
  coef : String → Option String

/-- A term of a utility function. -/
structure Term where
  param : String
  data : String

/-- The terms of `linear_utility_from_spec(spec, 'Label', col, ignore_x)` (`general.py:134-138`; C96 has the details). -/
def specTerms (ignore : List String) (rows : List Row) (col : String) : List Term :=
  rows.filterMap (fun r => if ignore.contains r.label then none else (r.coef col).map (fun c => ⟨c, r.label⟩))

/-- The value of a utility function. -/
noncomputable def value (pv : String → ℝ) (x : String → ℝ) (ts : List Term) : ℝ := (ts.map (fun t => pv t.param * x t.data)).sum

/-! ## Tour mode choice -/

/-- Lines 58-64 of `tour_mode_choice.py`: `coef_template[purpose].get(i.param, i.param)`. -/
def retarget (tpl : String → Option String) (ts : List Term) : List Term := ts.map (fun t => { t with param := (tpl t.param).getD t.param })

/-- Lines 49-65: the utility of alternative `col` for a purpose with template `tpl`.  A column without coefficients gives the number 0, which cannot be
iterated over. -/
def purposeUtility (rows : List Row) (tpl : String → Option String) (col : String) : Option (List Term) :=
  if specTerms ["#"] rows col = [] then none else some (retarget tpl (specTerms ["#"] rows col))

/-- Lines 71-83: availability of alternative `col` for a chooser with data `x`, from the utility of the first purpose. -/
noncomputable def tourAvail (rows : List Row) (tpls : List (String → Option String)) (col : String) (x : String → ℝ) : Option Bool :=
  match tpls with
  | [] => none
  | tpl :: _ => (purposeUtility rows tpl col).map (fun ts =>
      let cols := ts.filter (fun t => t.param == "-999")
      if cols.length = 0 then true else decide ((cols.map (fun t => x t.data)).sum = 0))

/-! ## Non-mandatory tour frequency -/

/-- A row of a coefficients table. -/
structure Coef where
  name : String
  value : ℝ
  hold : Bool

/-- `dict([(j, i) for i, j in ...])`, line 91 of `nonmand_tour_freq.py`: the last name with the value. -/
noncomputable def nameOf (cs : List Coef) (v : ℝ) : Option String := (cs.reverse.find? (fun c => decide (c.value = v))).map Coef.name

/-- Lines 92-93: the new entry of the spec for the entry `c`; names that are not in the table become missing values. -/
noncomputable def linked (cs : List Coef) (c : String) : Option String := ((cs.find? (fun k => k.name == c)).map Coef.value).bind (nameOf cs)

/-- `link_same_value_coefficients`, lines 82-93, for one segment. -/
noncomputable def link (cs : List Coef) (rows : List Row) (col : String) : List Row :=
  rows.map (fun r => { r with coef := fun k => if k = col then (r.coef col).bind (linked cs) else r.coef k })

/-- `unavail_data_cols`, lines 96-102; `pf` are the parameters of the model. -/
noncomputable def penaltyCols (pf : List Coef) (ts : List Term) : List String :=
  (ts.filter (fun t => pf.any (fun c => c.name == t.param && (decide (c.value < -900) && c.hold)))).map Term.data

/-- `~unavail(model, x_ca)`, lines 105-111 and 156, for one row; without such a parameter `unav` is not assigned. -/
noncomputable def freqAvail (pf : List Coef) (ts : List Term) (x : String → ℝ) : Option Bool :=
  if penaltyCols pf ts = [] then none else some (!((penaltyCols pf ts).any (fun s => decide (0 < x s))))

end Larch.AsimModels
