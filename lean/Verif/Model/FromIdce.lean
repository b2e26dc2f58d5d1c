import Verif.Model.ServiceData

/-!
# `DataFrames.from_idce` (`larch/dataframes.pyx`, 722-789)

A container made of one frame with a row for each available alternative of each case.  The constructor is modelled in `Verif/Model/Choices.lean`
(with `contain` of `Verif/Model/ServiceData.lean`); values are integers, none missing.  `crack_idca` is as in C130: a column is moved to the cases if
it is constant within each case (all columns are numbers).  No column is listed twice.  Without weights `autoscale_weights` does nothing (lines
1919-1922).  `none` stands for an exception.
-/

namespace Larch.FromIdce

open Larch.Frames Larch.Choices Larch.ServiceData

/-- Lines 259-263: the standard deviation within each case is zero or missing. -/
def constantIn (t : Tab2) (s : String) : Bool :=
  t.mf.rows.all (fun r => t.mf.rows.all (fun q => !decide (r.1.1 = q.1.1) || decide (r.2 s = q.2 s)))

/-- `g[_to_co].first()` (line 265): the cases in increasing order, each with the values of its first row. -/
def caseFrame (t : Tab2) : Tab1 :=
  ⟨t.names.filter (constantIn t),
   (uniq (t.mf.rows.map (fun r => r.1.1))).map (fun c => (c, ((t.mf.rows.find? (fun r => r.1.1 == c)).map Prod.snd).getD (fun _ => 0)))⟩

/-- `df[_keep_ca]` (lines 264-265). -/
def altFrame (t : Tab2) : Tab2 := ⟨t.names.filter (fun s => !constantIn t s), t.mf⟩

/-- The frame after line 765. -/
def frameOf (t : Tab2) (crack : Bool) : Tab2 := if crack then altFrame t else t

/-- `co` after line 765. -/
def coOf (t : Tab2) (crack : Bool) : Option Tab1 := if crack then some (caseFrame t) else none

/-- Lines 773-776. -/
def columnsOf (t : Tab2) (choice : Option String) (columns : Option (List String)) : List String :=
  match columns, choice with
  | some l, _ => l
  | none, some c => t.names.erase c
  | none, none => t.names

/-- `ce[choice].unstack().fillna(0)` (line 779): an exception if there is no such column. -/
def choiceOf (t : Tab2) : Option String → Option Choice
  | none => some .absent
  | some c => if c ∈ t.names then (unstack (column2 t c)).map Choice.wide else none

/-- The container: names of its columns by alternative and by case, and its content. -/
structure Result where
  names : List String
  coNames : List String
  answer : Answer

/-- `from_idce` (lines 722-789). -/
def fromIdce (t : Tab2) (choice : Option String) (columns : Option (List String)) (crack : Bool) : Option Result :=
  let ce := frameOf t crack
  let cols := columnsOf ce choice columns
  if cols.all (fun s => ce.names.contains s) then
    (choiceOf ce choice).bind (fun ch =>
      (contain { alts := some ⟨cols, ce.mf⟩, co := coOf t crack, ch := ch }).map (fun a =>
        ⟨cols, ((coOf t crack).map (fun f => f.names)).getD [], a⟩))
  else none

end Larch.FromIdce
