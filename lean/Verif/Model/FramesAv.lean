import Verif.Model.Frames

/-!
# Availability derived from idce data (`larch/dataframes.pyx`)
-/

namespace Larch.Frames

/-- `DataFrames.caseindex`, lines 1459-1477; the last two cases are `levels[0][numpy.unique(codes[0])]`. -/
def caseIndex {α : Type} (d : DF α) : List Int :=
  match d.co, d.ch, d.wt, d.av with
  | some f, _, _, _ => f.map Prod.fst
  | none, some f, _, _ => f.map Prod.fst
  | none, none, some f, _ => f.map Prod.fst
  | none, none, none, some f => f.map Prod.fst
  | none, none, none, none => match d.ca, d.ce with
    | some f, _ => ((usedCodes f).insertionSort (· ≤ ·)).filterMap (fun c => f.lev0[c]?)
    | none, some f => ((usedCodes f).insertionSort (· ≤ ·)).filterMap (fun c => f.lev0[c]?)
    | none, none => []

/-- `_array_ce_reversemap.shape[1]`, line 1657: largest alternative position plus one. -/
def ceAlts {α : Type} (f : MF α) : Nat := (f.rows.map (fun r => code1 f r.1.2 + 1)).foldl max 0

/-- Lines 658-660: `DataFrame(data=(_array_ce_reversemap >= 0), columns=alternative_codes, index=caseindex)`; `none` for the `ValueError` of
pandas when the shape of the data is not that of the labels. -/
def avFromCe {α : Type} (d : DF α) (f : MF α) : Option (List (Int × List Bool)) :=
  if ceCases f = (caseIndex d).length ∧ ceAlts f = d.altCodes.length then
    some ((caseIndex d).zipIdx.map (fun c => (c.1, (List.range d.altCodes.length).map (fun a => (reverseMap f c.2 a).isSome))))
  else none

/-- The row read for case position `i` and alternative position `a`, whatever the format. -/
def altRow {α : Type} (d : DF α) (i a : Nat) : Option ((Int × Int) × α) :=
  match d.ca, d.ce with
  | some f, _ => caRow d f i a
  | none, some f => ceRow f i a
  | none, none => none

end Larch.Frames
