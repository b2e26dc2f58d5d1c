import Verif.Model.PodSelect
import Verif.Model.Choices

/-!
# A data service answers a request for data (`larch/data_services/service.py`, 617-758)

`DataService.make_dataframes` and `validate_dataservice`.  Reading the data is modelled in `Verif/Model/PodSelect.lean`, the constructor of
`DataFrames` in `Verif/Model/Choices.lean`.  Values are integers here (see there), so that the conversion to `float_dtype` and `int` (line 674)
changes nothing; `standardize` (lines 712-714, C83) and requests given as YAML text are left out.  `none` stands for an exception.
-/

namespace Larch.ServiceData

open Larch.PodSelect Larch.Frames Larch.Choices

/-- The keys of `req_data` that `make_dataframes` looks at. -/
structure Req where
  ca : Option (List String) := none
  co : Option (List String) := none
  choiceCa : Option String := none
  choiceCo : Option (List (Int × String)) := none
  choiceCode : Option String := none
  weight : Option String := none
  availCa : Option String := none
  availCo : Option (List (Int × String)) := none
deriving DecidableEq

/-- What a row has under a name. -/
def field (vars : List String) (vals : List Int) (v : String) : Int := ((vars.zip vals).lookup v).getD 0

/-- Lines 662-663, `dataframe_idco(*req_data['co'], …)`; names given twice are refused by the setter of `data_co` (`dataframes.pyx`, 1566). -/
def coFrame (d : Svc Int) (s : Option Sel) (vars : List String) : Option Tab1 :=
  if vars.Nodup then (d.frameCO s vars).map (fun rows => ⟨vars, rows.map (fun r => (r.1, field vars r.2))⟩) else none

/-- Row `i` of several columns. -/
def across (cols : List (List ((Int × Int) × Int))) (i : Nat) : List Int := cols.filterMap (fun c => (c[i]?).map Prod.snd)

/-- The levels of `MultiIndex.from_product` are the labels in increasing order, each once. -/
def indexed {β : Type} (d : Svc Int) (idx : List Int) (n : Nat) (rows : List ((Int × Int) × β)) : MF β := ⟨uniq idx, uniq d.codes, rows, n⟩

/-- Lines 656-657, `dataframe_idca(*req_data['ca'], …)`; names given twice are refused by the setter of `data_ca` (`dataframes.pyx`, 1499). -/
def caFrame (d : Svc Int) (s : Option Sel) (vars : List String) : Option Tab2 :=
  if vars.Nodup then
    (vars.mapM (fun v => d.frameCA s v)).bind (fun cols => (d.caseindexes (d.pick s)).bind (fun idx =>
      if productIndex idx d.codes = [] then none else
      some ⟨vars, indexed d idx vars.length ((productIndex idx d.codes).zipIdx.map (fun e => (e.1, field vars (across cols e.2))))⟩))
  else none

/-- One column of data of the alternatives as it is given to the constructor. -/
def tallFrame (d : Svc Int) (s : Option Sel) (v : String) : Option (MF Int) :=
  (d.frameCA s v).bind (fun rows => (d.caseindexes (d.pick s)).map (fun idx => indexed d idx 1 rows))

/-- One column of case data. -/
def single (d : Svc Int) (s : Option Sel) (v : String) : Option (Co Int) :=
  (d.frameCO s [v]).map (fun rows => rows.map (fun r => (r.1, r.2.headD 0)))

/-- Lines 668-670: the expression for each alternative, zero for those without one. -/
def choiceTexts (codes : List Int) (defs : List (Int × String)) : List String := codes.map (fun a => (defs.lookup a).getD "0")

/-- Lines 665-680: choices.  A frame with a two-level index is brought into the form of a table by the constructor (`dataframes.pyx`, 628-643). -/
def choiceOf (d : Svc Int) (s : Option Sel) (r : Req) (x : Choices.Args) : Option Choice :=
  match r.choiceCa, r.choiceCo, r.choiceCode with
  | some v, _, _ => (tallFrame d s v).bind (fun f => (knownCodes x).bind (fun k => (unstackTall x k f).map Choice.wide))
  | none, some defs, _ => (d.frameCO s (choiceTexts d.codes defs)).map (fun rows => Choice.wide ⟨d.codes, rows⟩)
  | none, none, some v => (single d s v).map (fun l => Choice.wide ⟨d.codes, l.map (fun e => (e.1, oneHot d.codes e.2))⟩)
  | none, none, none => some .absent

/-- An integer stored as `numpy.int8`. -/
def int8 (v : Int) : Int := (v + 128) % 256 - 128

/-- Lines 688-693: availability. -/
def availOf (d : Svc Int) (s : Option Sel) (r : Req) : Option Avail :=
  match r.availCa, r.availCo with
  | some v, _ => (tallFrame d s v).map (fun f => Avail.tall { f with rows := f.rows.map (fun e => (e.1, int8 e.2)) })
  | none, some _ => none
  | none, none => some .absent

/-- Lines 682-686: weights. -/
def weightOf (d : Svc Int) (s : Option Sel) (r : Req) : Option Weight :=
  match r.weight with
  | some v => (single d s v).map Weight.series
  | none => some .absent

/-- The case data asked for: nothing if there is no such key, an exception if they cannot be read. -/
def coPart (d : Svc Int) (s : Option Sel) (r : Req) : Option (Option Tab1) :=
  match r.co with
  | some vars => (coFrame d s vars).map some
  | none => some none

/-- Likewise for the data of the alternatives. -/
def caPart (d : Svc Int) (s : Option Sel) (r : Req) : Option (Option Tab2) :=
  match r.ca with
  | some vars => (caFrame d s vars).map some
  | none => some none

/-- Lines 656-710: the arguments of the constructor. -/
def argsOf (d : Svc Int) (s : Option Sel) (r : Req) : Option Choices.Args :=
  (caPart d s r).bind (fun a => (coPart d s r).bind (fun c =>
    (choiceOf d s r { codes := some d.codes, co := c, alts := a }).bind (fun ch => (weightOf d s r).bind (fun w => (availOf d s r).map (fun v =>
      { codes := some d.codes, co := c, alts := a, ch := ch, av := v, wt := w })))))

/-- The answer: the data of the cases and of the alternatives as the container holds them, choices, weights and availability. -/
structure Answer where
  co : Option (Co (String → Int))
  ca : Option (MF (String → Int))
  ce : Option (MF (String → Int))
  ch : Option Table
  wt : Option (Co Int)
  av : Option Table

/-- The container made of the arguments (`dataframes.pyx`, 623-704). -/
def contain (x : Choices.Args) : Option Answer :=
  (choices x).bind (fun c => (weights x).bind (fun w => (availability x).map (fun v =>
    ⟨x.co.map (fun f => setSorted f.rows), (ca x).map (fun t => t.mf), ceSet x, c, w, v⟩)))

/-- `make_dataframes(req_data, selector=s)`, lines 617-718. -/
def makeDataframes (d : Svc Int) (s : Option Sel) (r : Req) : Option Answer := (argsOf d s r).bind contain

/-- `DataFrames.alternatives` of the answer (`dataframes.pyx`, 1388-1394): the names of the service are always given, and are an empty list
if they have not been set (`service.py`, 34, 708). -/
def alternativesOf (codes : List Int) (names : List String) : List (Int × String) := codes.zip names

/-- What an object offers: `dataframe_idca`, `dataframe_idco`. -/
structure Offers where
  idca : Bool
  idco : Bool

/-- Whether the request needs data of the alternatives, lines 731-758. -/
def needsCa (r : Req) : Bool := r.ca.isSome || r.choiceCa.isSome || r.availCa.isSome

/-- Whether the request needs case data. -/
def needsCo (r : Req) : Bool :=
  r.co.isSome || (r.choiceCa.isNone && (r.choiceCo.isSome || r.choiceCode.isSome)) || r.weight.isSome

/-- `validate_dataservice`, lines 720-758: whether it returns. -/
def validate (o : Offers) (r : Req) : Bool :=
  (!needsCa r || o.idca) && (!needsCo r || o.idco) && (r.availCa.isSome || r.availCo.isNone)

end Larch.ServiceData
