import Mathlib.Algebra.Order.Field.Basic
import Mathlib.Data.Rat.Defs

/-!
# The data doctor (`larch/troubleshooting.py:14-370`)

The frames of a `DataFrames` object as functions of case and column position; `none` is NaN, other numbers are exact elements of an ordered field.
Simplifications: availability is a Boolean; the setting `'*'` of `repair_noch_nowt` (the same as `'-'`, followed by `autoscale_weights`, see C77)
and `low_variance_data_co` (which never changes anything) are left out; availability and choices are loaded; the data is linked to a model that
made it computational.  `array_ch()`, `array_wt()` and `.values` share memory with the frames.
-/

namespace Larch.Doctor

variable {K : Type} [Field K] [LinearOrder K]

/-- What can be raised: `IndexError` (a Boolean mask of another shape), `ValueError`. -/
inductive Err
  | index
  | value
  deriving DecidableEq, Repr

/-- The settings `None`, `'+'`, `'-'`. -/
inductive Repair
  | none
  | plus
  | minus
  deriving DecidableEq, Repr

/-- The data.  `nAv`, `nCh` are the numbers of columns of `data_av`, `data_ch`; `qty c j` are the quantity variables of an alternative, `none` when
the data is in idce form and has no row for the alternative (`_array_ce_reversemap[c,j] = -1`); `nQ = 0` when no quantity is defined. -/
structure D (K : Type) where
  nCases : Nat
  nAv : Nat
  nCh : Nat
  av : Nat → Nat → Bool
  ch : Nat → Nat → Option K
  wt : Option (Nat → Option K)
  nQ : Nat
  qty : Nat → Nat → Option (Nat → Option K)
  nCo : Nat
  co : Nat → Nat → Option K

/-- `x > 0`: false for NaN. -/
def pos (x : Option K) : Bool := match x with
  | none => false
  | some v => decide (0 < v)

/-- `x` as a truth value: NaN is true. -/
def truthy (x : Option K) : Bool := match x with
  | none => true
  | some v => decide (v ≠ 0)

/-- `DataFrames._is_zero_quantity_onecase`, `larch/dataframes.pyx:2600-2650`, for one alternative; starting from the availability (2703-2727). -/
def zeroQ (d : D K) (c j : Nat) : Bool :=
  if d.av c j then
    match d.qty c j with
    | none => false
    | some q => !((List.range d.nQ).any (fun i => truthy (q i)))
  else false

/-- One line of a diagnosis: the column, the number of bad instances, the example rows. -/
structure Line where
  col : Nat
  n : Nat
  rows : List Nat
  deriving DecidableEq, Repr

/-- The cases flagged in a column (`i1[i2 == colnum]`). -/
def flagged (nCases : Nat) (mask : Nat → Nat → Bool) (j : Nat) : List Nat := (List.range nCases).filter (fun i => mask i j)

/-- Lines 111-127 (189-203): the sums by column, and the table of columns with a positive sum. -/
def tabulate (nCases wid verbose : Nat) (mask : Nat → Nat → Bool) : Option (List Line) :=
  if ((List.range wid).map (fun j => (flagged nCases mask j).length)).sum > 0 then
    some (((List.range wid).filter (fun j => (flagged nCases mask j).length > 0)).map fun j =>
      ⟨j, (flagged nCases mask j).length, (flagged nCases mask j).take verbose⟩)
  else none

/-- `chosen_but_zero_quantity`, lines 141-215.  `repair` other than `None`, `'-'` raises at once. -/
def chosenZeroQ (d : D K) (repair : Repair) (verbose : Nat) : D K × Except Err (Option (List Line)) :=
  if repair = .plus then (d, .error .value)
  else if d.nQ = 0 then (d, .ok none)
  else
    let wid := min d.nAv d.nCh
    let mask := fun i j => zeroQ d i j && pos (d.ch i j)
    match tabulate d.nCases wid verbose mask with
    | none => (d, .ok none)
    | some diag =>
      if repair = .minus then
        if wid ≠ d.nCh then (d, .error .index)
        else ({ d with ch := fun i j => if (i < d.nCases ∧ j < wid) ∧ mask i j then some 0 else d.ch i j }, .ok (some diag))
      else (d, .ok (some diag))

/-- The availability that lines 99-103 compare with: for a model whose choice data has a column for every node of the graph, the availability rolled
up to nests (`casc`, see C82). -/
def avFor (d : D K) (model : Option (Nat × ((Nat → Bool) → Nat → Bool))) : Nat × (Nat → Nat → Bool) := match model with
  | some (nodes, casc) => if d.nCh = nodes then (nodes, fun i => casc (d.av i)) else (d.nAv, d.av)
  | none => (d.nAv, d.av)

/-- `chosen_but_not_available`, lines 69-137. -/
def chosenNotAvail (d : D K) (model : Option (Nat × ((Nat → Bool) → Nat → Bool))) (repair : Repair) (verbose : Nat) :
    D K × Except Err (Option (List Line)) :=
  let a := avFor d model
  let wid := min a.1 d.nCh
  let mask := fun i j => !(a.2 i j) && pos (d.ch i j)
  match tabulate d.nCases wid verbose mask with
  | none => (d, .ok none)
  | some diag =>
    match repair with
    | .none => (d, .ok (some diag))
    | .plus =>
      if wid ≠ d.nAv then (d, .error .index)
      else ({ d with av := fun i j => if (i < d.nCases ∧ j < wid) ∧ mask i j then true else d.av i j }, .ok (some diag))
    | .minus =>
      if wid ≠ d.nCh then (d, .error .index)
      else ({ d with ch := fun i j => if (i < d.nCases ∧ j < wid) ∧ mask i j then some 0 else d.ch i j }, .ok (some diag))

/-- `array_ch().sum(1)`: NaN when some value is NaN. -/
def rowSum (d : D K) (i : Nat) : Option K := (List.range d.nCh).foldl (fun t j => match t, d.ch i j with
  | some a, some b => some (a + b)
  | _, _ => none) (some 0)

/-- `nothing_chosen_but_nonzero_weight`, lines 220-279. -/
def nothingChosen (d : D K) (repair : Repair) (verbose : Nat) : D K × Except Err (Option (Nat × List Nat)) :=
  match d.wt with
  | none => (d, .ok none)
  | some wt =>
    let nothing := fun i => decide (rowSum d i = some 0)
    let bad := (List.range d.nCases).filter (fun i => nothing i && pos (wt i))
    if bad.length > 0 then
      match repair with
      | .none => (d, .ok (some (bad.length, bad.take verbose)))
      | .plus => (d, .error .value)
      | .minus => ({ d with wt := some (fun i => if i < d.nCases ∧ nothing i then some 0 else wt i) }, .ok (some (bad.length, bad.take verbose)))
    else (d, .ok none)

/-- `fillna(0)`. -/
def fill (x : Option K) : Option K := match x with
  | none => some 0
  | some v => some v

/-- `nan_weight`, lines 282-327. -/
def nanWeight (d : D K) (repair : Bool) (verbose : Nat) : D K × Option (Nat × List Nat) :=
  match d.wt with
  | none => (d, none)
  | some wt =>
    let bad := (List.range d.nCases).filter (fun i => (wt i).isNone)
    (if repair then { d with wt := some (fun i => fill (wt i)) } else d, if bad.length > 0 then some (bad.length, bad.take verbose) else none)

/-- `nan_data_co`, lines 330-370: the first `verbose` columns with NaN and how many each has. -/
def nanCo (d : D K) (repair : Bool) (verbose : Nat) : D K × Option (List (Nat × Nat)) :=
  let cnt := fun j => ((List.range d.nCases).filter (fun i => (d.co i j).isNone)).length
  (if repair then { d with co := fun i j => fill (d.co i j) } else d,
    if ((List.range d.nCo).map cnt).sum > 0 then
      some ((((List.range d.nCo).filter (fun j => cnt j > 0)).map (fun j => (j, cnt j))).take verbose)
    else none)

/-- The settings of `doctor`, lines 14-23. -/
structure Settings where
  chAv : Repair := .none
  chZq : Repair := .none
  nochNowt : Repair := .none
  nanWt : Bool := false
  nanCo : Bool := false
  verbose : Nat := 3

/-- The problems found. -/
structure Report where
  zeroQuantity : Option (List Line)
  notAvailable : Option (List Line)
  nothingChosen : Option (Nat × List Nat)
  nanWeight : Option (Nat × List Nat)
  nanCo : Option (List (Nat × Nat))
  deriving DecidableEq, Repr

/-- `doctor(dfs, ...)`, lines 14-66.  An exception leaves the repairs made before it in place. -/
def doctor (model : Option (Nat × ((Nat → Bool) → Nat → Bool))) (s : Settings) (d : D K) : D K × Except Err Report :=
  match chosenZeroQ d s.chZq s.verbose with
  | (d1, .error e) => (d1, .error e)
  | (d1, .ok r1) =>
    match chosenNotAvail d1 model s.chAv s.verbose with
    | (d2, .error e) => (d2, .error e)
    | (d2, .ok r2) =>
      match nothingChosen d2 s.nochNowt s.verbose with
      | (d3, .error e) => (d3, .error e)
      | (d3, .ok r3) =>
        let w := nanWeight d3 s.nanWt s.verbose
        let c := nanCo w.1 s.nanCo s.verbose
        (c.1, .ok ⟨r1, r2, r3, w.2, c.2⟩)

end Larch.Doctor
