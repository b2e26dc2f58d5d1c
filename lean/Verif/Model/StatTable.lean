import Verif.Model.Ext

/-!
# The table of estimation statistics

Model of `estimation_statistics` (`larch/model/abstract_model.pyx:850-986`; the Excel form `larch/util/excel.py:600-705` has the same rows) and of
the values it shows: the caches of `loglike_null`, `loglike_nil`, `loglike_constants_only` (`abstract_model.pyx:27-31, 731-740, 787-800, 828-848`)
and `_most_recent_estimation_result` (`larch/model/optimization.py:383`).  Nothing but the constructor resets them.  The formatting of the
numbers (two or three digits) is left out.
-/

namespace Larch.StatTable

open Classical

/-- The model's data and specification at a moment, by what they determine: the number of cases and the reference log likelihoods; `none` where data
is missing (`MissingDataError`, or another exception for the last two). -/
structure Env where
  nCases : Option Nat
  null : Option X
  nil : Option X
  const : Option X

/-- What the model remembers. -/
structure St where
  env : Env
  cNull : X
  cNil : X
  cConst : X
  recent : Option X

/-- A new model: `abstract_model.pyx:27-31`. -/
noncomputable def fresh (e : Env) : St := ⟨e, .fin 0, .fin 0, .fin 0, none⟩

/-- The labels of the table. -/
inductive Stat
  | cases
  | convergence
  | null
  | rhoNull
  | nil
  | rhoNil
  | const
  | rhoConst
  deriving DecidableEq

/-- A row: the aggregate (`none` is "not available"), and the column per case (`none` is "na", or a cell that spans both columns). -/
structure Row where
  stat : Stat
  agg : Option X
  per : Option X

/-- `if ncases:` -/
def someCases : Option Nat → Option Nat
  | some 0 => none
  | n => n

/-- `ll / ncases`, or "na". -/
noncomputable def perCase (n : Option Nat) (ll : X) : Option X := (someCases n).map (fun k => ll / .fin (k : ℝ))

/-- Lines 899-905. -/
noncomputable def casesRow (n : Option Nat) : Row := ⟨.cases, (someCases n).map (fun k => .fin (k : ℝ)), none⟩

/-- Lines 907-915. -/
noncomputable def convRows (n : Option Nat) (recent : Option X) : List Row :=
  recent.toList.map (fun ll => ⟨.convergence, some ll, perCase n ll⟩)

/-- Lines 929-941 (and 944-956, 960-972): the reference value and, after an estimation, the rho squared with respect to it. -/
noncomputable def refRows (s rho : Stat) (n : Option Nat) (recent : Option X) (ref : X) : List Row :=
  if ref = .fin 0 then []
  else ⟨s, some ref, perCase n ref⟩ :: recent.toList.map (fun ll => ⟨rho, some (.fin 1 - ll / ref), none⟩)

/-- `loglike_null(use_cache=…)`, lines 731-740 (the values of the parameters are C22). -/
noncomputable def nullStep (s : St) (useCache : Bool) : St :=
  if s.cNull ≠ .fin 0 ∧ useCache = true then s else (s.env.null.map (fun v => { s with cNull := v })).getD s

/-- `loglike_nil(use_cache=…)`, lines 787-800. -/
noncomputable def nilStep (s : St) (useCache : Bool) : St :=
  if s.cNil ≠ .fin 0 ∧ useCache = true then s else (s.env.nil.map (fun v => { s with cNil := v })).getD s

/-- `loglike_constants_only()`, lines 828-848. -/
noncomputable def constStep (s : St) : St :=
  if s.cConst ≠ .fin 0 then s else (s.env.const.map (fun v => { s with cConst := v })).getD s

/-- Lines 918-928: the null value is computed when it is not known (`loglike_null()` uses the cache). -/
noncomputable def beforeRows (s : St) (compute : Bool) : St :=
  if s.cNull = .fin 0 ∧ compute = true then nullStep s true else s

/-- The rows. -/
noncomputable def rows (s : St) : List Row :=
  casesRow s.env.nCases :: convRows s.env.nCases s.recent ++ refRows .null .rhoNull s.env.nCases s.recent s.cNull ++
    refRows .nil .rhoNil s.env.nCases s.recent s.cNil ++ refRows .const .rhoConst s.env.nCases s.recent s.cConst

/-- `estimation_statistics(compute_loglike_null=…)`. -/
noncomputable def table (s : St) (compute : Bool) : St × List Row := (beforeRows s compute, rows (beforeRows s compute))

/-- What is done to a model. -/
inductive Op
  /-- other data, or another specification -/
  | change (e : Env)
  /-- an estimation that ends at this log likelihood -/
  | estimate (ll : X)
  | null (useCache : Bool)
  | nil (useCache : Bool)
  | const
  | table (compute : Bool)

/-- One of them. -/
noncomputable def step (s : St) : Op → St
  | .change e => { s with env := e }
  | .estimate ll => { s with recent := some ll }
  | .null c => nullStep s c
  | .nil c => nilStep s c
  | .const => constStep s
  | .table c => (table s c).1

end Larch.StatTable
