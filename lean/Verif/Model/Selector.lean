import Verif.Model.Frames
import Mathlib.Data.List.ProdSigma

/-!
# `DataFrames.selector_co` (`larch/dataframes.pyx`, 3220-3278)

The selector expression is evaluated row by row on the case data, so that it is a test on the content of a row.  Which rows of the data of
the alternatives are missing in all columns is a test on the content of a row as well.
-/

namespace Larch.Frames

variable {α : Type}

/-- Lines 3235-3240: the selector as a labelled column. -/
def selection (keep : α → Bool) (f : Co α) : List (Int × Bool) := f.map (fun r => (r.1, keep r.2))

/-- `frame[selector]` of pandas (lines 3249, 3252, 3260, 3263): by position when the labels are the same, else the selector is first reordered
by label, which fails if it has a label twice or a label of the frame is missing from it. -/
def boolIndex {β : Type} (sel : List (Int × Bool)) (g : List (Int × β)) : Option (List (Int × β)) :=
  if g.map Prod.fst = sel.map Prod.fst then some (((g.zip sel).filter (fun r => r.2.2)).map Prod.fst)
  else if (sel.map Prod.fst).Nodup ∧ g.all (fun r => (sel.lookup r.1).isSome) then some (g.filter (fun r => sel.lookup r.1 == some true))
  else none

/-- Lines 3255, 3257: `frame.unstack()[selector].stack()`.  `unstack` refuses labels that appear twice and drops levels that are not used;
`stack` gives each selected case a row per alternative and drops the rows that are missing in all columns. -/
def unstackStack (sel : List (Int × Bool)) (missing : α → Bool) (f : MF α) : Option (MF α) :=
  if (f.rows.map Prod.fst).Nodup then
    let cases := f.lev0.filter (fun c => f.rows.any (fun r => r.1.1 == c))
    let alts := f.lev1.filter (fun a => f.rows.any (fun r => r.1.2 == a))
    (boolIndex sel (cases.map (fun c => (c, c)))).map (fun kept =>
      { lev0 := kept.map Prod.fst
        lev1 := alts
        rows := ((kept.map Prod.fst).product alts).filterMap
          (fun p => f.rows.find? (fun r => r.1 == p && !missing r.2))
        cols := f.cols })
  else none

/-- `Option` in the optArg argument of the constructor: `none` (not given) stays, an error is an error. -/
def optArg {β γ : Type} (g : β → Option γ) : Option β → Option (Option γ)
  | none => some none
  | some b => (g b).map some

/-- Lines 3235-3276: `none` for an exception.  The alternative codes of the container are handed on and compared with those of the
data (`_ensure_consistent_alternative_codes`, 1362-1386). -/
def selectorCo (keep missing : α → Bool) (d : DF α) : Option (DF α) :=
  d.co.bind (fun f =>
    let sel := selection keep f
    (boolIndex sel f).bind (fun co =>
    (optArg (boolIndex sel) d.wt).bind (fun wt =>
    (optArg (unstackStack sel missing) (d.ca.or d.ce)).bind (fun mf =>
    (optArg (boolIndex sel) d.av).bind (fun av =>
    (optArg (boolIndex sel) d.ch).bind (fun ch =>
      if mf.all (fun g => decide (g.lev1 = d.altCodes)) then
        (build { co := some co, mf := mf, ch := ch, av := av, wt := wt }).map (fun r => { r with altCodes := d.altCodes })
      else none))))))

/-- Line 3277: the normalization of the weights goes with the data. -/
def selectorNorm {K : Type} (keep missing : α → Bool) (d : DF α × K) : Option (DF α × K) :=
  (selectorCo keep missing d.1).map (fun r => (r, d.2))

end Larch.Frames
