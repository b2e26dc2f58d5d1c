import Verif.Model.Request
import Verif.Model.Latent
import Verif.Model.Weights

/-!
# The data of a latent class model

Model of `required_data`, the setter of `dataframes` and `load_data` of `LatentClassModel` (`larch/model/latentclass.py:95-116, 616-650,
670-680`), with `required_data` of the constituents and `make_dataframes` from `Verif.Model.Request`, and of the use of weights in
`loglike` (`latentclass.py:574-598`).  `list(set(…))` comes in an order that Python does not fix: `lst` is any such function.
-/

namespace Larch.LatentData

open Larch.Request

/-- What goes wrong: `ValueError('mismatched …')`, or an error of `make_dataframes`. -/
inductive LErr
  | mismatch
  | load (e : Err)
  deriving DecidableEq

/-- The request as the dictionary it is in the program: one entry for each key. -/
structure DictReq where
  ca : Option (List String)
  co : Option (List String)
  choiceCa : Option String
  choiceCo : Option (List (Int × String))
  choiceCoCode : Option String
  choiceAny : Bool
  weightCo : Option String
  availCa : Option String
  availCo : Option (List (Int × String))
  availAny : Bool

/-- The entries of a choice. -/
def choiceCaOf : Option Choice → Option String
  | some (.ca e) => some e
  | _ => none
/-- `req_data.choice_co`. -/
def choiceCoOf : Option Choice → Option (List (Int × String))
  | some (.co m) => some m
  | _ => none
/-- `req_data.choice_co_code`. -/
def choiceCodeOf : Option Choice → Option String
  | some (.code e) => some e
  | _ => none
/-- `req_data.avail_ca`. -/
def availCaOf : Option Avail → Option String
  | some (.ca e) => some e
  | _ => none
/-- `req_data.avail_co`. -/
def availCoOf : Option Avail → Option (List (Int × String))
  | some (.co m) => some m
  | _ => none

/-- What `Model.required_data` returns, `model.py:653-709`, key by key. -/
def asDict (r : Req) : DictReq where
  ca := r.ca
  co := r.co
  choiceCa := choiceCaOf r.choice
  choiceCo := choiceCoOf r.choice
  choiceCoCode := choiceCodeOf r.choice
  choiceAny := r.choice == some .any
  weightCo := r.weight
  availCa := availCaOf r.avail
  availCo := availCoOf r.avail
  availAny := r.avail == some .any

/-- Which entry `make_dataframes` uses for the choices, `dataframes.pyx:3347-3386`. -/
def pickChoice (d : DictReq) : Option Choice :=
  (d.choiceCa.map .ca).or ((d.choiceCo.map .co).or ((d.choiceCoCode.map .code).or (if d.choiceAny then some .any else none)))

/-- Which entry it uses for the availability, `dataframes.pyx:3408-3445`. -/
def pickAvail (d : DictReq) : Option Avail :=
  (d.availCa.map .ca).or ((d.availCo.map .co).or (if d.availAny then some .any else none))

/-- The dictionary as `make_dataframes` reads it. -/
def ofDict (d : DictReq) : Req := ⟨d.ca, d.co, pickChoice d, d.weightCo, pickAvail d⟩

/-- `if i in k_req or i in req: req[i] = list(set(req.get(i,[])) | set(k_req.get(i,[])))`, `latentclass.py:100-102`. -/
def mergeList (lst : List String → List String) (a b : Option (List String)) : Option (List String) :=
  if a.isSome || b.isSome then some (lst (a.getD [] ++ b.getD [])) else none

/-- One of the other keys, `latentclass.py:103-113`. -/
def mergeOne {α : Type} [DecidableEq α] : Option α → Option α → Except LErr (Option α)
  | some x, some y => if y = x then .ok (some x) else .error .mismatch
  | some x, none => .ok (some x)
  | none, y => .ok y

/-- The turn of the loop for one class, `latentclass.py:98-113`.  The keys looked at are `weight_co`, `avail_ca`, `avail_co`, `choice_ca`,
`choice_co_code` and `choice_co_vars`; the last is not a key of any request (it is called `choice_co`), and `choice_co`, `choice_any`, `avail_any`
are not looked at. -/
def addClass (lst : List String → List String) (req k : DictReq) : Except LErr DictReq :=
  (mergeOne req.weightCo k.weightCo).bind fun w =>
  (mergeOne req.availCa k.availCa).bind fun aca =>
  (mergeOne req.availCo k.availCo).bind fun aco =>
  (mergeOne req.choiceCa k.choiceCa).bind fun cca =>
  (mergeOne req.choiceCoCode k.choiceCoCode).map fun code =>
    { req with ca := mergeList lst req.ca k.ca, co := mergeList lst req.co k.co, weightCo := w, availCa := aca, availCo := aco,
               choiceCa := cca, choiceCoCode := code }

/-- `Dict()`. -/
def emptyDict : DictReq := ⟨none, none, none, none, none, false, none, none, none, false⟩

/-- The loop over the classes. -/
def addClasses (lst : List String → List String) : DictReq → List Spec → Except LErr DictReq
  | req, [] => .ok req
  | req, k :: ks => (addClass lst req (asDict (required k))).bind fun r => addClasses lst r ks

/-- The variables of the membership model, `latentclass.py:114-116`. -/
def addTop (top : Req) (req : DictReq) : DictReq :=
  (top.co.map (fun l => { req with co := some (sortedSet (req.co.getD [] ++ l)) })).getD req

/-- `LatentClassModel.required_data`, `latentclass.py:95-117`. -/
def latentRequired (lst : List String → List String) (classes : List Spec) (top : Spec) : Except LErr Req :=
  (addClasses lst emptyDict classes).map fun r => ofDict (addTop (required top) r)

/-- An error of `make_dataframes`. -/
def liftErr {α : Type} : Except Err α → Except LErr α
  | .ok x => .ok x
  | .error e => .error (.load e)

/-- `load_data`, `latentclass.py:670-680`, without the weights' scaling (`Larch.Weights.autoscaleWeights`). -/
def latentLoad {K : Type} [Zero K] [One K] [DecidableEq K] [IntCast K] (lst : List String → List String) (arrow : Bool) (src : Source K)
    (classes : List Spec) (top : Spec) : Except LErr (Loaded K) :=
  (latentRequired lst classes top).bind fun r => liftErr (makeDataframes arrow false src r)

/-- `loglike` of all cases, `latentclass.py:574-598`: the weights as they are in `data_wt`; `_weight_normalization` is not used. -/
noncomputable def latentLL (p : Nat → Nat → ℝ) (w : Weights.W ℝ) : ℝ := Latent.loglike w.nCases w.nAlts p w.ch w.wt

/-- The labels of the columns of class membership probabilities: the alternative codes `numpy.arange(1, n + 1)` given in the setter of
`dataframes`, `latentclass.py:626-631` (`probability(return_dataframe='idco')`, `controller.pyx:1054-1059`). -/
def memberCols (n : Nat) : List String := (List.range' 1 n).map (fun (i : Nat) => toString i)

end Larch.LatentData
