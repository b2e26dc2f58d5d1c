import Verif.Model.FramesAv

/-!
# Conversion of tables of cases and alternatives to idce rows and back (`larch/dataframes.pyx`)

Tables (`_array_ch`, `_array_av`, …) are functions of case position and alternative position.
-/

namespace Larch.Frames

variable {α K : Type} [Zero K]

/-- The two loops `for c in range(shape[0]): for a in range(shape[1])`. -/
def cells (f : MF α) : List (Nat × Nat) :=
  (List.range (ceCases f)).flatMap (fun c => (List.range (ceAlts f)).map (fun a => (c, a)))

/-- Lines 1721-1728 (`data_av_as_ce`), 1840-1847 (`data_ch_as_ce`), 1863-1870 (`data_wt_as_ce`, with a table that does not depend on the alternative):
one value per row of `data_ce`. -/
def asCe (f : MF α) (M : Nat → Nat → K) : List K :=
  (cells f).foldl (fun arr p => match reverseMap f p.1 p.2 with
    | some k => arr.set k (M p.1 p.2)
    | none => arr) (List.replicate f.rows.length 0)

/-- `data_co_as_ce`, lines 1595-1606: the values are assembled for `nVars` columns, but the frame is given a single column name (`none` for the
`ValueError` of pandas).  `M i v` is variable `v` of case position `i`. -/
def coAsCe (f : MF α) (nVars : Nat) (M : Nat → Nat → K) : Option (List String × List (List K)) :=
  if nVars = 1 then some (["weight"], (asCe f (fun i _ => M i 0)).map (fun v => [v])) else none

/-- The idca branches of lines 1716-1719 and 1835-1838: `_data_ch[_data_av.stack().astype(bool).values]`, a selection of the `nCases` rows of the
table by a list of `nCases * nAlts` flags, which pandas refuses unless the lengths agree. -/
def caAsCe (nCases nAlts : Nat) (M : Nat → List K) (av : Nat → Nat → Bool) : Option (List (List K)) :=
  if nCases * nAlts = nCases then
    some (((List.range nCases).filter (fun i => av i 0)).map M)
  else none

/-- `Series.unstack().fillna(0)`: columns are the alternatives that occur, rows the cases that occur, both increasing; a repeated label raises
`ValueError`. -/
def pivot (rows : List ((Int × Int) × K)) : Option (List Int × List (Int × List K)) :=
  if (rows.map Prod.fst).Nodup then
    let alts := (rows.map (fun r => r.1.2)).dedup.insertionSort (· ≤ ·)
    let cases := (rows.map (fun r => r.1.1)).dedup.insertionSort (· ≤ ·)
    some (alts, cases.map (fun c => (c, alts.map (fun b => (rows.lookup (c, b)).getD 0))))
  else none

/-- The constructor's `ch_as_ce` (lines 566-570) followed by lines 643-648: alternatives without rows get a column of zeros; other sets of
columns raise. -/
def chFromCe (codes : List Int) (rows : List ((Int × Int) × K)) : Option (List (Int × List K)) :=
  (pivot rows).bind (fun t =>
    let t' := if t.1.length < codes.length ∧ t.1.all (fun b => codes.contains b) then
        (codes, t.2.map (fun r => (r.1, codes.map (fun b => if t.1.contains b then (rows.lookup (r.1, b)).getD 0 else 0))))
      else t
    if t'.1 = codes then some t'.2 else none)

/-- The constructor's `av_as_ce` (lines 582-586): as `ch_as_ce`, but columns are not added: `none` for the `ValueError` of the reshape
(line 1704) when their number differs. -/
def avFromCeRows (codes : List Int) (rows : List ((Int × Int) × K)) : Option (List (Int × List K)) :=
  (pivot rows).bind (fun t => if t.1.length = codes.length then some t.2 else none)

end Larch.Frames
