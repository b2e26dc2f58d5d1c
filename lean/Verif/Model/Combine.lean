import Verif.Model.FramesCe

/-!
# One frame made of several: `data_ca_as_ce`, `data_ce_as_ca`, `data_co_combined`, `data_ca_combined` (`larch/dataframes.pyx`)

Rows hold a value for every column name; `none` is a missing value.  `none` as a result is an exception.
-/

namespace Larch.Combine

open Larch.Frames

variable {K : Type} [Zero K]

/-- The values of a row. -/
abbrev Vals (K : Type) := String → Option K

/-- A frame with one row per case. -/
structure FrameCo (K : Type) where
  names : List String
  rows : List (Int × Vals K)

/-- A frame with one row per case and alternative (idca or idce). -/
structure FrameCa (K : Type) where
  names : List String
  rows : List ((Int × Int) × Vals K)

/-- The availability table: codes of its columns, and one row per case. -/
structure Avail where
  cols : List Int
  rows : List (Int × List Int)

/-- `_data_av.stack().astype(bool).values`: the cells row by row. -/
def mask (av : Avail) : List Bool := av.rows.flatMap (fun r => r.2.map (fun v => v != 0))

/-- `data_ca_as_ce`, lines 1539-1545.  Selection by a list of flags is by position and needs one flag per row. -/
def condense (ce ca : Option (FrameCa K)) (av : Option Avail) : Option (Option (FrameCa K)) :=
  match ce, ca, av with
  | some f, _, _ => some (some f)
  | none, none, _ => some none
  | none, some _, none => none
  | none, some f, some a =>
    if (mask a).length = f.rows.length then some (some { f with rows := ((f.rows.zip (mask a)).filter Prod.snd).map Prod.fst }) else none

/-- `data_ce_as_ca`, lines 1683-1690: `data_ce.unstack().fillna(0).stack()`.  (It is a property: `promote` keeps its default.  Without idce data
there is nothing to unstack; repeated labels raise.) -/
def expand (ce : Option (FrameCa K)) : Option (FrameCa K) :=
  match ce with
  | none => none
  | some f =>
    if (f.rows.map Prod.fst).Nodup then
      some { f with
        rows := ((f.rows.map (fun r => r.1.1)).dedup.insertionSort (· ≤ ·)).flatMap (fun c =>
          ((f.rows.map (fun r => r.1.2)).dedup.insertionSort (· ≤ ·)).map (fun b =>
            ((c, b), fun s => some (((f.rows.lookup (c, b)).bind (fun v => v s)).getD 0)))) }
    else none

/-- A cell of the wide frame of `data_co_combined`: its column is the name and `'*'` (`none`) or the code of an alternative. -/
abbrev WideCol := String × Option Int

/-- `ca.unstack()`: one row per case that occurs, increasing; missing cells are missing values. -/
def unstackAll (f : FrameCa K) : Option (List WideCol × List (Int × (WideCol → Option K))) :=
  if (f.rows.map Prod.fst).Nodup then
    some (f.names.flatMap (fun n => ((f.rows.map (fun r => r.1.2)).dedup.insertionSort (· ≤ ·)).map (fun b => (n, some b))),
      ((f.rows.map (fun r => r.1.1)).dedup.insertionSort (· ≤ ·)).map (fun c => (c, fun col =>
        match col.2 with
        | some b => (f.rows.lookup (c, b)).bind (fun v => v col.1)
        | none => none)))
  else none

/-- `data_co_combined`, lines 1904-1919, with idca or idce data `ca`.  The merge keeps the cases that are in both frames, in the order of the first.  (With
case data only the frame itself is returned, with simple column names: here with `'*'`.  Without any data `result` is not assigned.) -/
def coCombined (co : Option (FrameCo K)) (ca : Option (FrameCa K)) : Option (List WideCol × List (Int × (WideCol → Option K))) :=
  match ca, co with
  | some f, some g => (unstackAll f).map (fun w =>
      (g.names.map (fun n => (n, none)) ++ w.1,
        g.rows.flatMap (fun r => (w.2.filter (fun q => q.1 == r.1)).map (fun q => (r.1, fun col =>
          match col.2 with
          | none => r.2 col.1
          | some _ => q.2 col)))))
  | some f, none => unstackAll f
  | none, some g => some (g.names.map (fun n => (n, none)), g.rows.map (fun r => (r.1, fun col => r.2 col.1)))
  | none, none => none

/-- The name of a column in a merge: pandas appends `_x` or `_y` to a name that both frames have. -/
def merged (suffix : String) (others : List String) (n : String) : String := if others.contains n then n ++ suffix else n

/-- `data_ca_combined`, lines 1935-1948: every row with the data of its case. -/
def caCombined (co : Option (FrameCo K)) (ca : Option (FrameCa K)) : Option (List ((Int × Int) × List (String × Option K))) :=
  match ca, co with
  | some f, some g => some (f.rows.flatMap (fun r => (g.rows.filter (fun s => s.1 == r.1.1)).map (fun s =>
      (r.1, f.names.map (fun n => (merged "_x" g.names n, r.2 n)) ++ g.names.map (fun n => (merged "_y" f.names n, s.2 n))))))
  | some f, none => some (f.rows.map (fun r => (r.1, f.names.map (fun n => (n, r.2 n)))))
  | none, _ => none

end Larch.Combine
