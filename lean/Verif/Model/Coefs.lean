import Verif.Model.Params

/-!
# Coefficient tables (`larch/util/activitysim/general.py`)

A coefficients table is a list of rows (name, value, text of `constrain`).  `num` is Python's `float` applied to a parameter name
(`none` when it raises).  Model groups are not covered.
-/

namespace Larch.Params

/-- A row of the coefficients file: index `coefficient_name`, columns `value` and `constrain`. -/
structure CoefRow where
  name : String
  value : X
  constrain : String

/-- `model.set_value(i, value=j, initvalue=j, nullvalue=j, minimum=j, maximum=j, holdfast=True)`,
`larch/util/activitysim/general.py:225-233`. -/
noncomputable def lockAt (m : Mentions) (f : Frame) (n : String) (j : X) : Frame :=
  (setValue m f n [.initvalue j, .nullvalue j, .minimum j, .maximum j, .holdfast 1, .value j]).1

/-- `explicit_value_parameters(model)`, `general.py:204-233`: `model.pf.index` is read once. -/
noncomputable def explicitValues (m : Mentions) (num : String → Option X) (f : Frame) : Frame :=
  let f0 := unmangle m false f
  f0.names.foldl (fun f n => match num n with
    | none => f
    | some j => lockAt m f n j) f0

/-- One row of the loop of `apply_coefficients`, `general.py:257-265`: `in model` reads `model.pf` (`model.py:713`); a bound that
is `None` is converted by `numpy.float64(None)`, which is NaN (`parameter_frame.pyx:370-371`). -/
noncomputable def applyRow (m : Mentions) (mn mx : Option X) (f : Frame) (c : CoefRow) : Frame :=
  let f1 := unmangle m false f
  if c.name ∈ f1.names then
    (setValue m f1 c.name [.holdfast (if c.constrain = "T" then 1 else 0), .minimum (mn.getD .nan), .maximum (mx.getD .nan),
      .value c.value]).1
  else f1

/-- `apply_coefficients(coefficients, model, minimum, maximum)` for one model, `general.py:236-265`. -/
noncomputable def applyCoefs (m : Mentions) (num : String → Option X) (tab : List CoefRow) (mn mx : Option X) (f : Frame) : Frame :=
  tab.foldl (applyRow m mn mx) (explicitValues m num f)

/-- `apply_coefficients(coefficients, {…}, minimum, maximum)`, `general.py:249-251`: the recursive call passes neither bound. -/
noncomputable def applyCoefsAll (num : String → Option X) (tab : List CoefRow) (_mn _mx : Option X)
    (ms : List (Mentions × Frame)) : List Frame :=
  ms.map (fun e => applyCoefs e.1 num tab none none e.2)

/-- `update_coefficients(model, data)`, `general.py:470-474`, for a table without repeated names. -/
noncomputable def updateCoefs (m : Mentions) (tab : List CoefRow) (f : Frame) : List CoefRow :=
  let f1 := unmangle m false f
  tab.map (fun c => match rowOf f1.rows c.name with
    | some r => { c with value := r.value }
    | none => c)

end Larch.Params
