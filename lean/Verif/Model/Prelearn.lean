import Mathlib.Data.List.Basic
/-!
# Prelearners

Models `larch/prelearning.py`: the handling of `fit`, of validation data and of the cache file in
`Prelearner.__init__` (64-163), `filter_and_join_columns` (178-191) and the labels of
`XGBoostPrelearner.evals_result` (436-448).

`D` are collections of data (frames of explanatory variables with their choices), `W` vectors of
weights.  A classifier is what is known of it: the data it was fitted to, and the data on which its
progress was evaluated, in order.  The learning itself, grid search and the constructor arguments
are not modelled.
-/

namespace Larch.Prelearn

/-- What is raised: `False.pop` (AttributeError), or an argument the classifier's `fit` does not
know (TypeError). -/
inductive Err where
  | attribute | unexpectedKeyword
  deriving DecidableEq, Repr

/-- A dictionary of arguments for `fit`, with the keys treated by larch. -/
structure Fit (D W : Type) where
  evalSetNames : Option (List String)
  validationPercent : Option Nat
  trainAsEval : Bool
  evalSet : Option (List D)
  evalWeights : Option (List W)

/-- The argument `fit`: `False`, `True` or a dictionary. -/
inductive FitArg (D W : Type) where
  | no
  | yes
  | dict (f : Fit D W)

/-- A classifier. -/
structure Clf (D W : Type) where
  fittedTo : Option D
  weights : Option W
  evalSet : List D
  evalWeights : List W

/-- The prelearner made, the dictionary as it is afterwards, and what was written to the cache. -/
structure Made (D W : Type) where
  clf : Clf D W
  names : List String
  dict : Fit D W
  saved : Option (Clf D W)

/-- The empty dictionary. -/
def noFit {D W : Type} : Fit D W := ⟨none, none, false, none, none⟩

/-- `fit = {}` for `True`, and `self.eval_set_names = fit.pop('eval_set_names', [])`
(prelearning.py:82-90). -/
def start {D W : Type} : FitArg D W → Except Err (List String × Fit D W)
  | .no => .error .attribute
  | .yes => .ok ([], noFit)
  | .dict f => .ok (f.evalSetNames.getD [], { f with evalSetNames := none })

/-- `'validation_percent' in fit and validation_dataframes is None` and what follows
(prelearning.py:93-97): the training data, the validation data, their label and the dictionary. -/
def divide {D W : Type} (split : D → Nat → D × D) (data : D) (valid : Option D) (f : Fit D W) :
    D × Option D × String × Fit D W :=
  match f.validationPercent, valid with
  | some p, none => ((split data p).1, some (split data p).2, toString p, { f with validationPercent := none })
  | _, _ => (data, valid, "preset", f)

/-- The addition of the validation data (prelearning.py:98-110). -/
def addValidation {D W : Type} (weightOf : D → Option W) (valid : Option D) (label : String) (names : List String)
    (f : Fit D W) : List String × Fit D W :=
  match valid with
  | none => (names, f)
  | some v =>
    (names ++ ["validation_" ++ label],
      { f with
        evalSet := some (f.evalSet.getD [] ++ [v])
        evalWeights := match weightOf v with
          | none => f.evalWeights
          | some w => some (f.evalWeights.getD [] ++ [w]) })

/-- The addition of the training data (prelearning.py:141-147). -/
def addTraining {D W : Type} (weightOf : D → Option W) (train : D) (names : List String) (f : Fit D W) :
    List String × Fit D W :=
  if f.trainAsEval then
    ("training" :: names,
      { f with
        trainAsEval := false
        evalSet := some (train :: f.evalSet.getD [])
        evalWeights := match weightOf train with
          | none => f.evalWeights
          | some w => some (w :: f.evalWeights.getD []) })
  else (names, f)

/-- `clf.fit(training_X, training_Y, sample_weight=…, **fit)` (prelearning.py:150-153). -/
def train {D W : Type} (weightOf : D → Option W) (data : D) (f : Fit D W) : Except Err (Clf D W) :=
  if f.validationPercent.isSome then .error .unexpectedKeyword
  else .ok ⟨some data, weightOf data, f.evalSet.getD [], f.evalWeights.getD []⟩

/-- `Prelearner.__init__` (prelearning.py:64-163).  `cache` is `none` without a cache file,
`some none` if the file does not exist yet. -/
def make {D W : Type} (weightOf : D → Option W) (split : D → Nat → D × D) (data : D) (valid : Option D) (fit : FitArg D W)
    (cache : Option (Option (Clf D W))) : Except Err (Made D W) :=
  match start fit with
  | .error e => .error e
  | .ok (names0, f0) =>
    let (training, valid', label, f1) := divide split data valid f0
    let (names1, f2) := addValidation weightOf valid' label names0 f1
    match cache with
    | some (some clf) => .ok ⟨clf, names1, f2, none⟩
    | _ =>
      let (names2, f3) := addTraining weightOf training names1 f2
      match train weightOf training f3 with
      | .error e => .error e
      | .ok clf => .ok ⟨clf, names2, f3, cache.map fun _ => clf⟩

/-- The labels of `evals_result` (prelearning.py:441-447) for results on `n` sets, called
`validation_0`, … by the classifier: the names replace them from the front. -/
def resultLabels (names : List String) (n : Nat) : List String :=
  (List.range n).map fun i => (names[i]?).getD ("validation_" ++ toString i)

/-- A row of data on alternatives: the case, the alternative and the values. -/
structure CaRow (K : Type) where
  case : Int
  alt : Int
  vals : List (Option K)

/-- `filter_and_join_columns` (prelearning.py:178-191) with columns on cases: a left join on the
case, then `fillna(0)`; without such columns the data are as they were. -/
def joinColumns {K : Type} [Zero K] (nCo : Nat) (ca : List (CaRow K)) (co : List (Int × List (Option K))) : List (CaRow K) :=
  if nCo = 0 then ca else
  ca.flatMap fun r =>
    let hits := co.filter fun q => q.1 = r.case
    let rights := if hits.isEmpty then [List.replicate nCo none] else hits.map Prod.snd
    rights.map fun v => ⟨r.case, r.alt, (r.vals ++ v).map fun o => some (o.getD 0)⟩

end Larch.Prelearn
