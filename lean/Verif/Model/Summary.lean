import Verif.Model.Cascade
import Mathlib.Algebra.Field.Defs
import Mathlib.Order.Defs.LinearOrder

/-!
# The summary of choices and availability

Model of `DataFrames.choice_avail_summary` (`larch/dataframes.pyx:1212-1331`) and of `choice_avail_summary(dataset)`
(`larch/dataset/__init__.py:1381-1524`), which a model of the numba engine calls (`larch/numba/model.py:2086-2101`).

Columns (alternatives, or all the nodes of the nesting graph) are addressed by position.  The names and the text of availability conditions are not modelled, nor is
the display of whole numbers.
-/

namespace Larch.Summary

/-- What can go wrong. -/
inductive Err
  /-- `AttributeError` -/
  | attribute
  /-- `TypeError` -/
  | type
  /-- `ValueError` -/
  | value
  deriving DecidableEq

variable {K : Type}

/-- The data: number of cases and of columns, choices, availability and weights; `root` is the position of the root node when a graph is given. -/
structure Inputs (K : Type) where
  nCases : Nat
  nCols : Nat
  ch : Option (Nat → Nat → K)
  av : Option (Nat → Nat → K)
  wt : Option (Nat → K)
  root : Option Nat

/-- The summary: a column of the table is absent (`none`), or has for each position a number or NaN; then the row of totals. -/
structure Table (K : Type) where
  chosen : Option (Nat → Option K)
  chosenW : Option (Nat → Option K)
  avail : Option (Nat → Option K)
  availW : Option (Nat → Option K)
  unav : Option (Nat → Option K)
  unavW : Option (Nat → Option K)
  totChosen : Option (Option K)
  totChosenW : Option (Option K)
  totUnav : Option (Option K)
  totUnavW : Option (Option K)

section
variable [Field K] [LinearOrder K]

/-- `t.sum(0)`. -/
def colSum (n : Nat) (t : Nat → Nat → K) (j : Nat) : K := ((List.range n).map (fun i => t i j)).sum

/-- `t.values.sum()`. -/
def allSum (n k : Nat) (t : Nat → Nat → K) : K := ((List.range k).map (colSum n t)).sum

/-- Choices with those of available alternatives set to zero, `dataframes.pyx:1264-1265`, `__init__.py:1437-1438`. -/
def leftOver (av : Option (Nat → Nat → K)) (ch : Nat → Nat → K) : Nat → Nat → K :=
  match av with
  | none => ch
  | some a => fun i j => if 0 < a i j then 0 else ch i j

/-- The total of a column, `dataframes.pyx:1306-1325`, `__init__.py:1482-1500`: the row of the root if there is a graph, else the sum without NaN. -/
def total (k : Nat) (root : Option Nat) (x : Nat → Option K) : Option K :=
  match root with
  | some r => x r
  | none => some (((List.range k).map (fun j => (x j).getD 0)).sum)

/-- Assembly of the table, `dataframes.pyx:1276-1325`, `__init__.py:1447-1500`. -/
def assemble (d : Inputs K) (showWt : Bool) (ch av chW avW : Option (Nat → Option K)) (unav unavW : Option (Nat → Option K)) : Table K :=
  { chosen := ch
    chosenW := if showWt then chW else none
    avail := av
    availW := if showWt then avW else none
    unav := unav
    unavW := if showWt then unavW else none
    totChosen := ch.map (total d.nCols d.root)
    totChosenW := if showWt then chW.map (total d.nCols d.root) else none
    totUnav := unav.map (total d.nCols d.root)
    totUnavW := if showWt then unavW.map (total d.nCols d.root) else none }

/-- The column sums of the table times the weights, which are a column: `dataframes.pyx:1251, 1255, 1269`. -/
def wSum (n : Nat) (t : Nat → Nat → K) (w : Nat → K) (j : Nat) : K := colSum n (fun i j => t i j * w i) j

/-- `DataFrames.choice_avail_summary`, `dataframes.pyx:1212-1331`. -/
def frames (d : Inputs K) : Except Err (Table K) :=
  match d.ch with
  | none => match d.av with
    | some _ => .error .attribute
    | none => .ok ⟨none, none, none, none, none, none, none, none, none, none⟩
  | some ch =>
    let col := fun t => (fun j => some (colSum d.nCases t j) : Nat → Option K)
    let wcol := fun t w => (fun j => some (wSum d.nCases t w j) : Nat → Option K)
    let showWt := match d.wt with
      | none => false
      | some w => (List.range d.nCols).any (fun j => decide (colSum d.nCases ch j ≠ wSum d.nCases ch w j))
    let rest := leftOver d.av ch
    let anyLeft := decide (0 < allSum d.nCases d.nCols rest)
    .ok (assemble d showWt (some (col ch)) (d.av.map col) (d.wt.map (wcol ch)) (d.av.bind fun a => d.wt.map (wcol a))
      (if anyLeft then some (col rest) else none) (if anyLeft then d.wt.map (wcol rest) else none))

/-- `(t * wt.values).sum(0)` with `wt.values` of one dimension, `__init__.py:1424, 1428`: numpy aligns the weights with the *columns*; the length of the result and its entries. -/
def bcast (n k : Nat) (t : Nat → Nat → K) (w : Nat → K) : Except Err (Nat × (Nat → K)) :=
  if k = n then .ok (k, fun j => colSum n (fun i j => t i j * w j) j)
  else if n = 1 then .ok (k, fun j => colSum n (fun i j => t i j * w 0) j)
  else if k = 1 then .ok (n, fun j => colSum n (fun i j => t i 0 * w j) j)
  else .error .value

/-- `pd.Series(x, index=idx)` of a series with positions as its labels: taken by label. -/
def relabel (idx : List Int) (x : Nat × (Nat → K)) (j : Nat) : Option K :=
  match idx[j]? with
  | none => none
  | some c => if 0 ≤ c ∧ c < x.1 then some (x.2 c.toNat) else none

/-- The weighted choices and availability and whether they are shown, `__init__.py:1421-1435`: comparing arrays of different lengths raises. -/
def weighted (d : Inputs K) (ch : Nat → Nat → K) : Except Err (Bool × Option (Nat × (Nat → K)) × Option (Nat × (Nat → K))) :=
  match d.wt with
  | none => .ok (false, none, none)
  | some w => match bcast d.nCases d.nCols ch w with
    | .error e => .error e
    | .ok chW => match d.av with
      | none => if d.root.isNone then .error .type else
        if chW.1 = d.nCols then .ok ((List.range d.nCols).any (fun j => decide (colSum d.nCases ch j ≠ chW.2 j)), some chW, none) else .error .value
      | some a => match bcast d.nCases d.nCols a w with
        | .error e => .error e
        | .ok avW =>
          if chW.1 = d.nCols then .ok ((List.range d.nCols).any (fun j => decide (colSum d.nCases ch j ≠ chW.2 j)), some chW, some avW)
          else .error .value

/-- `choice_avail_summary(dataset, graph)`, `__init__.py:1381-1524`; `idx` are the labels of the columns.  Without a graph a missing availability becomes `array(None)`, which cannot be
compared with 0; missing choices cannot be set to zero.  The case without choices and availability is not distinguished. -/
def dataset (idx : List Int) (d : Inputs K) : Except Err (Table K) :=
  match d.ch with
  | none => .error .type
  | some ch => match weighted d ch with
    | .error e => .error e
    | .ok (showWt, chW, avW) =>
      if d.av.isNone ∧ d.root.isNone then .error .type
      else
        let col := fun t => (fun j => some (colSum d.nCases t j) : Nat → Option K)
        let rest := leftOver d.av ch
        let anyLeft := decide (0 < allSum d.nCases d.nCols rest)
        if anyLeft ∧ d.wt.isSome then .error .attribute
        else .ok (assemble d showWt (some (col ch)) (d.av.map col) (chW.map (relabel idx)) (avW.map (relabel idx))
          (if anyLeft then some (col rest) else none) none)

end

/-! ## With a nesting graph -/

open Larch.Graph Larch.Cascade

/-- One row of a table as a list. -/
def rowOf {α : Type} (k : Nat) (t : Nat → Nat → α) (i : Nat) : List α := (List.range k).map (t i)

/-- The rows of a wide table. -/
def wide {α : Type} (zero : α) (n : Nat) (row : Nat → Option (Nat → α)) : Option (Nat → Nat → α) :=
  ((List.range n).mapM row).map fun l => fun i j => (l[i]?.map (fun r => r j)).getD zero

/-- The tables rolled up to all nodes by the compiled engine, `dataframes.pyx:1239-1241`; `n` cases, `k` alternatives. -/
def framesGraph [Field K] (g : G) (n k : Nat) (ch : Nat → Nat → K) (av : Nat → Nat → Bool) (wt : Option (Nat → K)) : Option (Inputs K) :=
  (standardSort g).bind fun std =>
    (wide 0 n (fun i => (chCascade g (rowOf k ch i)).map (fun r => fun j => (std[j]?.map r).getD 0))).bind fun c =>
      (wide false n (fun i => (avCascade g (rowOf k av i)).map (fun r => fun j => (std[j]?.map r).getD false))).map fun a =>
        ⟨n, std.length, some c, some (fun i j => if a i j then 1 else 0), wt, some (std.idxOf g.root)⟩

/-- The tables rolled up by the numba engine, `__init__.py:1405-1409`. -/
def datasetGraph [Field K] (g : G) (n k : Nat) (ch : Nat → Nat → K) (av : Nat → Nat → Bool) (wt : Option (Nat → K)) : Option (Inputs K) :=
  (standardSort g).bind fun std =>
    (wide 0 n (fun i => nbCascade (fun a b => a + b) 0 g (rowOf k ch i))).bind fun c =>
      (wide false n (fun i => nbCascade (fun a b => a || b) false g (rowOf k av i))).map fun a =>
        ⟨n, std.length, some c, some (fun i j => if a i j then 1 else 0), wt, some (std.idxOf g.root)⟩

end Larch.Summary
