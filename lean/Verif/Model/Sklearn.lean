import Mathlib.Analysis.SpecialFunctions.Log.Basic
import Mathlib.Algebra.BigOperators.Group.List.Basic

/-!
# The scikit-learn style interface

Model of `predict_proba`, `predict` and `score` of `larch/model/model.py:300-429` for data in idce format (the only one `fit`
accepts, `model.py:246-295`).

`X` is a list of rows keyed by (case, alternative), in the order given by the user.  The compiled data hold the cases in the order
`cases` and the alternatives in the order `alts` (the levels of the index, sorted in every index pandas makes itself), an
alternative being available to a case when `X` has the row.  `P c a` is the probability the model computes (the subject of
other models): a real number, NaN not modelled.
-/

namespace Larch.Sklearn

variable {ι κ : Type} [DecidableEq ι] [DecidableEq κ]

/-- The keys of the result of `probability(return_dataframe='idce')`, `controller.pyx:1055-1056`: all cases by all alternatives,
those not available removed. -/
def slots (cases : List ι) (alts : List κ) (rows : List (ι × κ)) : List (ι × κ) :=
  (cases.flatMap (fun c => alts.map (fun a => (c, a)))).filter (fun k => k ∈ rows)

/-- `predict_proba(X)`, `model.py:335-379`: the numbers, in the order of the slots. -/
def predictProba (cases : List ι) (alts : List κ) (rows : List (ι × κ)) (P : ι → κ → ℝ) : List ((ι × κ) × ℝ) :=
  (slots cases alts rows).map (fun k => (k, P k.1 k.2))

/-- The index of that result: without idco data the cases are numbered by position (`controller.pyx:1036`). -/
def predictIndex (cases : List ι) (alts : List κ) (rows : List (ι × κ)) : List (Nat × κ) :=
  (slots cases alts rows).map (fun k => (cases.idxOf k.1, k.2))

open Classical in
/-- `score(X, y)`, `model.py:400-427`, without weights: `y` in the order of the rows of `X`. -/
noncomputable def score (cases : List ι) (alts : List κ) (rows : List (ι × κ)) (P : ι → κ → ℝ) (y : List ℝ) :
    Except String ℝ :=
  let pr := (predictProba cases alts rows P).map Prod.snd
  let adj := y.sum / cases.length
  if pr.length ≠ y.length then .error "IndexError: Boolean index has wrong length"
  else .ok ((((pr.zip y).filter (fun q => decide (0 < q.2))).map (fun q => Real.log q.1 * q.2 / adj)).sum / cases.length)

open Classical in
/-- `score(X, y, sample_weight)`, `model.py:400-429`. -/
noncomputable def scoreWt (cases : List ι) (alts : List κ) (rows : List (ι × κ)) (P : ι → κ → ℝ) (y sw : List ℝ) :
    Except String ℝ :=
  let pr := (predictProba cases alts rows P).map Prod.snd
  let adj := y.sum / cases.length
  if pr.length ≠ y.length ∨ sw.length ≠ y.length then .error "IndexError: Boolean index has wrong length"
  else
    let sel := (pr.zip (y.zip sw)).filter (fun q => decide (0 < q.2.1))
    .ok ((sel.map (fun q => Real.log q.1 * q.2.1 * (q.2.2 / adj))).sum / (sel.map (fun q => q.2.2 / adj)).sum)

open Classical in
/-- `numpy.nanargmax` of one row (positions from `i`; `best` the best so far): the first position of the greatest number, none
if there is no number (numpy raises). -/
noncomputable def nanargmax : List (Option ℝ) → Nat → Option (Nat × ℝ) → Option (Nat × ℝ)
  | [], _, best => best
  | none :: l, i, best => nanargmax l (i + 1) best
  | some v :: l, i, none => nanargmax l (i + 1) (some (i, v))
  | some v :: l, i, some b => nanargmax l (i + 1) (if b.2 < v then some (i, v) else some b)

open Classical in
/-- One row of `pr.unstack()`: the probabilities by alternative, NaN for alternatives not available. -/
noncomputable def rowVals (alts : List κ) (rows : List (ι × κ)) (P : ι → κ → ℝ) (c : ι) : List (Option ℝ) :=
  alts.map (fun a => if (c, a) ∈ rows then some (P c a) else none)

/-- One row of the result of `predict`, `model.py:326-331`: 1 at the maximum, 0 elsewhere, NaN dropped by `stack`. -/
noncomputable def predictRow (alts : List κ) (rows : List (ι × κ)) (P : ι → κ → ℝ) (c : ι) :
    Except String (List ((ι × κ) × Nat)) :=
  match nanargmax (rowVals alts rows P c) 0 none with
  | none => .error "ValueError: All-NaN slice encountered"
  | some b => .ok (((alts.zipIdx).filter (fun q => (c, q.1) ∈ rows)).map (fun q => ((c, q.1), if q.2 = b.1 then 1 else 0)))

/-- `predict(X)`, `model.py:300-333`. -/
noncomputable def predict (cases : List ι) (alts : List κ) (rows : List (ι × κ)) (P : ι → κ → ℝ) :
    Except String (List ((ι × κ) × Nat)) :=
  (cases.mapM (predictRow alts rows P)).map List.flatten

end Larch.Sklearn
