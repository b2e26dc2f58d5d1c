import Verif.Model.Choices

/-!
# Saving a `DataFrames` in a file and loading it (`larch/dataframes.pyx`)

`joblib.dump` and `joblib.load` are taken to return the frames as they were.
-/

namespace Larch.Choices

open Larch.Frames

/-- What a `DataFrames` holds: alternative codes and names, the frames, the weight normalization and the name of the case index. -/
structure Cont where
  codes : List Int
  names : Option (List String)
  co : Option Tab1
  ca : Option Tab2
  ce : Option Tab2
  ch : Option Table
  wt : Option (Co Int)
  av : Option Table
  norm : Rat
  caseName : String

/-- Lines 658-660: availability derived from the rows of idce data; `none` for the `ValueError` of pandas when the shapes differ. -/
def derivedAv (x : Args) (codes : List Int) (ch : Option Table) (wt : Option (Co Int)) : Option (Option Table) :=
  match ceSet x with
  | some f => if ceCases f = (ids x ch wt).length ∧ ceAlts f = codes.length then
      (setAv x ch codes.length ⟨codes, (ids x ch wt).zipIdx.map (fun c =>
        (c.1, (List.range codes.length).map (fun a => if (reverseMap f c.2 a).isSome then 1 else 0)))⟩).map some else none
  | none => some none

/-- `data_av` of the new container: given or derived. -/
def allAv (x : Args) (codes : List Int) (ch : Option Table) (wt : Option (Co Int)) : Option (Option Table) :=
  match x.av with
  | .absent => derivedAv x codes ch wt
  | _ => availability x

/-- The setter of `data_co`, lines 1553-1581. -/
def setCo (f : Tab1) : Tab1 := { f with rows := setSorted f.rows }

/-- `DataFrames(...)`: the container made of the arguments (lines 397-719), with `alt_names` and `caseindex_name`. -/
def construct (x : Args) (names : Option (List String)) (caseName : String) : Option Cont :=
  (altCodes x).bind (fun codes => (choices x).bind (fun ch => (weights x).bind (fun wt => (allAv x codes ch wt).map (fun av =>
    { codes := codes, names := names, co := x.co.map setCo, ca := ca x, ce := (ce x).map (fun t => { t with mf := setCe t.mf }), ch := ch,
      wt := wt, av := av, norm := 1, caseName := caseName }))))

/-- What `dump` writes, lines 2770-2783: the frames only. -/
structure Stored where
  av : Option Table
  ca : Option Tab2
  ce : Option Tab2
  ch : Option Table
  co : Option Tab1
  wt : Option (Co Int)

/-- `dump`, lines 2770-2785. -/
def dump (d : Cont) : Stored := ⟨d.av, d.ca, d.ce, d.ch, d.co, d.wt⟩

/-- The arguments that `load` passes to the constructor, line 2809 (`ca` and `ce` are not both stored: each setter clears the other). -/
def loadArgs (s : Stored) : Args :=
  { co := s.co
    alts := s.ca.or s.ce
    ch := (s.ch.map Choice.wide).getD .absent
    av := (s.av.map Avail.wide).getD .absent
    wt := (s.wt.map Weight.series).getD .absent }

/-- `load`, lines 2788-2809: `cls(**storage_dict)`. -/
def load (s : Stored) : Option Cont := construct (loadArgs s) none "_caseid_"

/-- `total_weight`, lines 1413-1417. -/
def totalWeight (d : Cont) : Rat :=
  match d.wt with
  | some w => ((w.map Prod.snd).sum : Int) * d.norm
  | none => (nCases { co := d.co, alts := d.ca.or d.ce } d.codes.length (rowsOr d.ch ((d.av.map (fun t => t.rows.length)).getD 0)) : Int)

/-- `alternatives`, lines 1388-1394: code and name. -/
def alternatives (d : Cont) : List (Int × String) :=
  match d.names with
  | some l => d.codes.zip l
  | none => d.codes.map (fun c => (c, toString c))

/-- The rows of alternatives with new codes: `df1.set_index([caseindex, name])` at the end of `new_alternative_codes`
(`larch/model/systematic_alternatives.py:438-439`); pandas makes sorted levels of what occurs. -/
def recodeRows (t : Tab2) (code : List Int) : Tab2 :=
  { t with mf :=
      { lev0 := uniq (t.mf.rows.map (fun r => r.1.1)), lev1 := uniq code,
        rows := (t.mf.rows.zip code).map (fun p => ((p.1.1.1, p.2), p.1.2)), cols := t.mf.cols } }

/-- A cell of a table of the container, read by position. -/
def cellD (t : Table) (i a : Nat) : Int := ((t.rows[i]?).bind (fun r => r.2[a]?)).getD 0

/-- `new_systematic_alternatives`, lines 3472-3549: `code` are the codes that `new_alternative_codes` gives the rows.  `none` for an exception: without
idce data line 3516 reads the index of `None`.  The names of the columns of choices, weights and availability, which are passed on, are left out. -/
def recode (d : Cont) (code : List Int) (names : List String) : Option Cont :=
  match d.ce with
  | none => none
  | some t =>
    (construct
      { codes := some (uniq code)
        co := d.co
        alts := some (recodeRows t code)
        ch := (d.ch.map (fun c => Choice.onRows (asCe t.mf (cellD c)))).getD .absent
        av := (d.av.map (fun c => Avail.onRows (asCe t.mf (cellD c)))).getD .absent
        wt := (d.wt.map Weight.series).getD .absent } (some names) d.caseName).map (fun e => { e with norm := d.norm })

end Larch.Choices
