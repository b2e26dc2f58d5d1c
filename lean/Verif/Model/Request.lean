import Mathlib.Data.List.Sort
import Mathlib.Data.String.Basic
import Mathlib.Algebra.Ring.Defs

/-!
# From a model's specification to its data

Model of `required_data` (`larch/model/model.py:653-708`), `columnize` on lists and mappings
(`larch/util/dataframe.py:116-184`), `DataFrames.make_dataframes` (`larch/dataframes.pyx:3280-3466`) as used by `load_data`
(`larch/model/controller.pyx:557-597`), and the parts of `prepare_data` about choices, availability and weights
(`larch/numba/data_arrays.py:222-360`).

Evaluating an expression on the data is a parameter: `co e` is the value of `e` for each case (by position), or `none` if it
has an unknown name (`NameError`); `ca e` the same for case and alternative.  Other errors of an evaluation are not
modelled; nor is the conversion of types.  Cases are in the order of the data (C79 is about that order); `idca` data is complete, so that the cells
of an `idca` column are addressed by positions (`unstack` of a complete frame).
-/

namespace Larch.Request

/-- What can go wrong. -/
inductive Err
  /-- `NameError` -/
  | name
  /-- `KeyError` -/
  | key
  /-- `ValueError`: `Length mismatch` -/
  | size
  /-- `MissingDataError` -/
  | missing
  /-- `NotImplementedError` -/
  | notImplemented
  deriving DecidableEq

/-! ## The request -/

/-- How choices are given. -/
inductive Choice
  | ca (e : String)
  | co (m : List (Int × String))
  | code (e : String)
  | any
  deriving DecidableEq

/-- How availability is given. -/
inductive Avail
  | ca (e : String)
  | co (m : List (Int × String))
  | any
  deriving DecidableEq

/-- The attributes of a model that `required_data` reads; an empty text, mapping or function counts as not given. -/
structure Spec where
  utilityCa : List String
  quantityCa : List String
  utilityCo : List (Int × List String)
  choiceCaVar : String
  choiceCoVars : List (Int × String)
  choiceCoCode : String
  choiceAny : Bool
  weightCoVar : String
  availabilityVar : String
  availabilityCoVars : List (Int × String)
  availabilityAny : Bool

/-- The request. -/
structure Req where
  ca : Option (List String)
  co : Option (List String)
  choice : Option Choice
  weight : Option String
  avail : Option Avail
  deriving DecidableEq

/-- The keys of a dictionary (or the elements of a set) made from a list: each once, in the order of the first occurrence. -/
def keysOf {α : Type} [DecidableEq α] : List α → List α
  | [] => []
  | a :: t => a :: (keysOf t).filter (fun x => decide (x ≠ a))

/-- `list(sorted(set(…)))`. -/
def sortedSet (l : List String) : List String := (keysOf l).insertionSort (· ≤ ·)

/-- `required_data`, `model.py:653-708`. -/
def required (m : Spec) : Req where
  ca := if m.utilityCa = [] ∧ m.quantityCa = [] then none else some (sortedSet (m.utilityCa ++ m.quantityCa))
  co := if m.utilityCo = [] then none
    else some (sortedSet ((m.utilityCo.flatMap Prod.snd).filter (fun d => decide (d ≠ "1"))))
  choice :=
    if m.choiceCaVar ≠ "" then some (.ca m.choiceCaVar)
    else if m.choiceCoVars ≠ [] then some (.co m.choiceCoVars)
    else if m.choiceCoCode ≠ "" then some (.code m.choiceCoCode)
    else if m.choiceAny then some .any
    else none
  weight := if m.weightCoVar ≠ "" then some m.weightCoVar else none
  avail :=
    if m.availabilityVar ≠ "" then some (.ca m.availabilityVar)
    else if m.availabilityCoVars ≠ [] then some (.co m.availabilityCoVars)
    else if m.availabilityAny then some .any
    else none

/-! ## The compiled engine -/

variable {K : Type}

/-- A `DataFrames` as a source of data: alternative codes, evaluation, and what is already set. -/
structure Source (K : Type) where
  alts : List Int
  co : String → Option (Nat → K)
  ca : String → Option (Nat → Nat → K)
  ch : Option (Nat → Nat → K)
  av : Option (Nat → Nat → K)
  wt : Option (Nat → K)
  wtNorm : K
  chName : Option String

/-- The data handed to the engine: arrays addressed by the positions of case and alternative. -/
structure Loaded (K : Type) where
  caCols : Option (List (String × (Nat → Nat → K)))
  coCols : Option (List (String × (Nat → K)))
  ch : Option (Nat → Nat → K)
  av : Option (Nat → Nat → K)
  wt : Option (Nat → K)
  wtNorm : K

/-- The evaluation of all the expressions of a list, `util/dataframe.py:160-164`. -/
def evalAll {α β : Type} (ev : String → Option β) (l : List (α × String)) : Except Err (List (α × β)) :=
  match l.mapM (fun p => (ev p.2).map (fun v => (p.1, v))) with
  | none => .error .name
  | some r => .ok r

/-- `columnize(df, list)`, `dataframe.py:145-184`: the keys are the expressions.  With `pyarrow` the columns come in the
order of the sorted keys, otherwise in the order of the dictionary. -/
def columnizeList {β : Type} (arrow : Bool) (ev : String → Option β) (l : List String) : Except Err (List (String × β)) :=
  let keys := if arrow then (keysOf l).insertionSort (· ≤ ·) else keysOf l
  evalAll ev (keys.map (fun k => (k, k)))

/-- `columnize(df, mapping)`: the keys are those of the mapping. -/
def columnizeMap {β : Type} (arrow : Bool) (ev : String → Option β) (m : List (Int × String)) :
    Except Err (List (Int × β)) :=
  evalAll ev (if arrow then m.insertionSort (fun p q => p.1 ≤ q.1) else m)

/-- A table from its columns by position. -/
def table [Zero K] (cols : List (Nat → K)) : Nat → Nat → K := fun i j => (cols[j]?.map (fun v => v i)).getD 0

/-- `req_data['choice_co'].get(a, '0')`. -/
def exprOf (m : List (Int × String)) (a : Int) : String := (m.lookup a).getD "0"

/-- `choice_co`, `dataframes.pyx:3356-3364`: an unknown name means the choices that are already set. -/
def chooseCo [Zero K] (arrow : Bool) (src : Source K) (m : List (Int × String)) : Except Err (Option (Nat → Nat → K)) :=
  match columnizeList arrow src.co (src.alts.map (exprOf m)) with
  | .error .name => .ok src.ch
  | .error e => .error e
  | .ok cols => if cols.length = src.alts.length then .ok (some (table (cols.map Prod.snd))) else .error .size

/-- `choice_co_code`, `dataframes.pyx:3365-3374`. -/
def chooseCode [Zero K] [One K] [DecidableEq K] [IntCast K] (src : Source K) (e : String) :
    Except Err (Option (Nat → Nat → K)) :=
  match src.co e with
  | none => .error .name
  | some code => .ok (some (fun i j => match src.alts[j]? with
    | some a => if code i = (a : K) then 1 else 0
    | none => 0))

/-- `choice_ca`, `dataframes.pyx:3347-3355`. -/
def chooseCa (src : Source K) (e : String) : Except Err (Option (Nat → Nat → K)) :=
  if src.chName = some e then .ok src.ch
  else match src.ca e with
    | none => .ok src.ch
    | some v => .ok (some v)

/-- The choices, `dataframes.pyx:3347-3386`. -/
def loadChoice [Zero K] [One K] [DecidableEq K] [IntCast K] (arrow explicit : Bool) (src : Source K) :
    Option Choice → Except Err (Option (Nat → Nat → K))
  | some (.ca e) => chooseCa src e
  | some (.co m) => chooseCo arrow src m
  | some (.code e) => chooseCode src e
  | some .any => match src.ch with
    | none => .error .missing
    | some v => .ok (some v)
  | none => .ok (if explicit then none else src.ch)

/-- The weights and their normalization, `dataframes.pyx:3388-3406`. -/
def loadWeight [One K] (explicit : Bool) (src : Source K) (e : Option String) : Option (Nat → K) × K :=
  let first : Option (Nat → K) × K := match e with
    | none => (none, 1)
    | some e => match src.co e with
      | some v => (some v, 1)
      | none => (src.wt, src.wtNorm)
  if first.1.isNone && src.wt.isSome && !explicit then (src.wt, src.wtNorm) else first

/-- `avail_co`, `dataframes.pyx:3416-3428`, followed by the setter of `data_av` (`dataframes.pyx:1700-1704`), which takes the
columns by position. -/
def availCo [Zero K] (arrow : Bool) (src : Source K) (m : List (Int × String)) : Except Err (Option (Nat → Nat → K)) :=
  if src.alts = [] then .error .size
  else match columnizeMap arrow src.co (src.alts.map (fun a => (a, exprOf m a))) with
    | .error e => .error e
    | .ok cols => .ok (some (table (cols.map Prod.snd)))

/-- The availability, `dataframes.pyx:3408-3445`. -/
def loadAvail [Zero K] (arrow explicit : Bool) (src : Source K) : Option Avail → Except Err (Option (Nat → Nat → K))
  | some (.ca e) => .ok (match src.ca e with
    | none => src.av
    | some v => some v)
  | some (.co m) => availCo arrow src m
  | some .any => match src.av with
    | none => .error .missing
    | some v => .ok (some v)
  | none => .ok (if explicit then none else src.av)

/-- `make_dataframes`, `dataframes.pyx:3280-3466`. -/
def makeDataframes [Zero K] [One K] [DecidableEq K] [IntCast K] (arrow explicit : Bool) (src : Source K) (r : Req) :
    Except Err (Loaded K) := do
  let ca ← match r.ca with
    | none => .ok none
    | some l => (columnizeList arrow src.ca l).map some
  let co ← match r.co with
    | none => .ok none
    | some l => (columnizeList arrow src.co l).map some
  let ch ← loadChoice arrow explicit src r.choice
  let wt := loadWeight explicit src r.weight
  let av ← loadAvail arrow explicit src r.avail
  .ok ⟨ca, co, ch, av, wt.1, wt.2⟩

/-! ## The numba engine -/

/-- `choice_co` of `prepare_data`, `numba/data_arrays.py:239-253`: column by column, in the order of the alternatives. -/
def nbChooseCo [Zero K] (alts : List Int) (co : String → Option (Nat → K)) (m : List (Int × String)) :
    Except Err (Nat → Nat → K) :=
  match alts.mapM (fun a => m.lookup a) with
  | none => .error .key
  | some es => match es.mapM co with
    | none => .error .name
    | some cols => .ok (table cols)

/-- `choice_co_code` of `prepare_data`, `data_arrays.py:223-238`. -/
def nbChooseCode [Zero K] [One K] [DecidableEq K] [IntCast K] (alts : List Int) (co : String → Option (Nat → K))
    (e : String) : Except Err (Nat → Nat → K) :=
  match co e with
  | none => .error .key
  | some code => .ok (fun i j => match alts[j]? with
    | some a => if code i = (a : K) then 1 else 0
    | none => 0)

/-- `avail_co` of `prepare_data`, `data_arrays.py:340-356`: a flow with one column for each alternative, in their order. -/
def nbAvailCo [Zero K] (alts : List Int) (co : String → Option (Nat → K)) (m : List (Int × String)) :
    Except Err (Nat → Nat → K) :=
  match alts.mapM (fun a => co (exprOf m a)) with
  | none => .error .name
  | some cols => .ok (table cols)

/-- A variable of a dataset with the dimensions of cases and alternatives in either order; `v` is addressed as stored. -/
structure Stored (K : Type) where
  caseFirst : Bool
  v : Nat → Nat → K

/-- `choice_ca` (or `avail_ca`) of `prepare_data` when the text is the name of a variable: `_prep_ca` hands over the variable
as it is (`data_arrays.py:391-397`), and `to_arrays` takes `.values` (`larch/dataset/flow.py:571-579`), the array as stored. -/
def nbNamedCa (x : Stored K) : Nat → Nat → K := x.v

end Larch.Request
