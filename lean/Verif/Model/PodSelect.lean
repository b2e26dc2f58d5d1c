import Mathlib.Data.List.Basic

/-!
# Selecting cases in a data service (`larch/data_services/general.py`, 41-54; `larch/data_services/service.py`, 49-74, 175-181, 183-252,
401-476)
-/

namespace Larch.PodSelect

/-- A `slice` of Python. -/
structure Slice where
  start : Option Int
  stop : Option Int
  step : Option Int
deriving DecidableEq, Repr

/-- A bound of `slice.indices` of Python: brought into the range from `lo` to `hi`, a negative one counted from the end. -/
def clampBound (n lo hi : Int) (v : Int) : Int := if v < 0 then max (v + n) lo else min v hi

/-- `slice.indices(n)` of Python, with a step that is not zero. -/
def Slice.startOf (s : Slice) (n : Int) (step : Int) : Int :=
  match s.start with
  | some v => if 0 < step then clampBound n 0 n v else clampBound n (-1) (n - 1) v
  | none => if 0 < step then 0 else n - 1

def Slice.stopOf (s : Slice) (n : Int) (step : Int) : Int :=
  match s.stop with
  | some v => if 0 < step then clampBound n 0 n v else clampBound n (-1) (n - 1) v
  | none => if 0 < step then n else -1

def Slice.stepOf (s : Slice) : Int := s.step.getD 1

/-- What can be given to select cases.  A `scalar` is an array with no dimension, a `raw` a text stored as it is. -/
inductive Sel
  | all
  | slice (s : Slice)
  | mask (m : List Bool)
  | index (i : List Int)
  | scalar (b : Bool)
  | raw (t : String)
deriving DecidableEq, Repr

/-- The number of cases of a slice, line 46 of `general.py`: `max(0, (stop - start + (step - (1 if step > 0 else -1))) // step)`. -/
def sliceLen (start stop step : Int) : Nat :=
  (max 0 (Int.fdiv (stop - start + (step - (if step > 0 then 1 else -1))) step)).toNat

/-- `selector_len_for` (`general.py`, 41-54): none if it raises. -/
def selLen (s : Sel) (n : Nat) : Option Nat :=
  match s with
  | .all => some n
  | .slice s => if s.stepOf = 0 then none else some (sliceLen (s.startOf n s.stepOf) (s.stopOf n s.stepOf) s.stepOf)
  | .mask m => if m.length = n then some (m.count true) else none
  | .index i => some i.length
  | .scalar _ => none
  | .raw _ => none

/-- The elements that numpy takes for a slice: from `i` on in steps, until `stop` is reached. -/
def walk : Nat → Int → Int → Int → List Int
  | 0, _, _, _ => []
  | f + 1, i, stop, step => if (0 < step ∧ i < stop) ∨ (step < 0 ∧ stop < i) then i :: walk f (i + step) stop step else []

/-- An index of numpy: a negative one counts from the end. -/
def wrapIndex (n : Nat) (i : Int) : Option Int :=
  if 0 ≤ i then (if i < n then some i else none) else (if 0 ≤ i + n then some (i + n) else none)

/-- The positions numpy takes from an array of length `n`: none if it raises.  (PyTables is taken to give the same as numpy, `load_data_item` in
`h5/h5pod/generic.py`, 798-811, falls back on it.) -/
def positions (s : Sel) (n : Nat) : Option (List Int) :=
  match s with
  | .all => some ((List.range n).map (fun (k : Nat) => (k : Int)))
  | .slice s => if s.stepOf = 0 then none else some (walk n (s.startOf n s.stepOf) (s.stopOf n s.stepOf) s.stepOf)
  | .mask m => if m.length = n then some (((List.range n).filter (fun k => m[k]?.getD false)).map (fun (k : Nat) => (k : Int))) else none
  | .index i => i.mapM (wrapIndex n)
  | .scalar _ => none
  | .raw _ => none

/-- A data service, as far as selecting goes: the number of cases, the default selector, and the columns of case data that can be read. -/
structure Svc (α : Type) where
  n : Nat
  sel : Sel
  /-- What an expression gives for all cases; none if it raises. -/
  co : String → Option (List α)
  /-- Likewise for data of the alternatives: a row for each case. -/
  ca : String → Option (List (List α))
  codes : List Int

/-- `selector=` of a call, else the default (`service.py`, 176-177, 210-211, 244-245, 428-429, 462-463). -/
def Svc.pick {α : Type} (d : Svc α) (s : Option Sel) : Sel := s.getD d.sel

/-- `DataService.caseindexes` (`service.py`, 175-181). -/
def Svc.caseindexes {α : Type} (d : Svc α) (s : Sel) : Option (List Int) := positions s d.n

/-- The elements of a column at the positions. -/
def takeAt {β : Type} (col : List β) (ps : List Int) : Option (List β) := ps.mapM (fun i => col[i.toNat]?)

/-- `array_idco` (`service.py`, 183-215) for one name: an array of `selector_len_for` rows is made, and the selected data are put into it, which
raises if they are not as many. -/
def readCol {β : Type} (n : Nat) (s : Sel) (col : List β) : Option (List β) :=
  (selLen s n).bind (fun k => (positions s n).bind (fun ps => (takeAt col ps).bind (fun v => if v.length = k then some v else none)))

def Svc.arrayCO {α : Type} (d : Svc α) (s : Sel) (vars : List String) : Option (List (List α)) :=
  vars.mapM (fun v => (d.co v).bind (readCol d.n s))

/-- Row `i` of an array kept by columns. -/
def rowOf {β : Type} (cols : List (List β)) (i : Nat) : List β := cols.filterMap (fun c => c[i]?)

/-- `dataframe_idco` (`service.py`, 217-251): the rows with their labels. -/
def Svc.frameCO {α : Type} (d : Svc α) (s : Option Sel) (vars : List String) : Option (List (Int × List α)) :=
  (d.arrayCO (d.pick s) vars).bind (fun cols => (d.caseindexes (d.pick s)).map (fun idx => idx.zipIdx.map (fun e => (e.1, rowOf cols e.2))))

/-- `array_idca` (`service.py`, 401-433) for one name. -/
def Svc.arrayCA {α : Type} (d : Svc α) (s : Sel) (v : String) : Option (List (List α)) := (d.ca v).bind (readCol d.n s)

/-- The product of the cases and the alternatives, the cases outside (`service.py`, 467-470). -/
def productIndex (cases codes : List Int) : List (Int × Int) := cases.flatMap (fun c => codes.map (fun a => (c, a)))

/-- `dataframe_idca` (`service.py`, 435-476) for one name: the array is laid out case by case; nothing can be laid out with no rows (line 465), and
the labels must be as many as the rows. -/
def Svc.frameCA {α : Type} (d : Svc α) (s : Option Sel) (v : String) : Option (List ((Int × Int) × α)) :=
  (d.arrayCA (d.pick s) v).bind (fun rows => (d.caseindexes (d.pick s)).bind (fun idx =>
    if rows.flatten = [] then none
    else if (productIndex idx d.codes).length = rows.flatten.length then some ((productIndex idx d.codes).zip rows.flatten) else none))

/-- The array of truth values of a selector expression, `squeeze`d (`service.py`, 64): with one case, no dimension is left. -/
def squeeze (m : List Bool) : Sel :=
  match m with
  | [b] => .scalar b
  | m => .mask m

/-- What can be assigned to `selector`. -/
inductive Value
  | nothing
  | text (t : String)
  | several (ts : List String)
  | slice (s : Slice)
  | mask (m : List Bool)
  | index (i : List Int)

/-- The truth values of several expressions, all of them (`service.py`, 68). -/
def allTrue (n : Nat) (cols : List (List Bool)) : List Bool := (List.range n).map (fun k => cols.all (fun c => c[k]?.getD false))

/-- `DataService.selector = value` (`service.py`, 55-74): the service afterwards, and whether the assignment returned. -/
def Svc.setSelector {α : Type} (truth : α → Bool) (d : Svc α) (v : Value) : Svc α × Bool :=
  match v with
  | .nothing => ({ d with sel := .all }, true)
  | .text t =>
    match d.co t with
    | none => ({ d with sel := .all }, false)
    | some c => ({ d with sel := squeeze (c.map truth) }, true)
  | .several ts =>
    match ts.mapM d.co with
    | none => ({ d with sel := .all }, false)
    | some cs => ({ d with sel := .mask (allTrue d.n (cs.map (List.map truth))) }, true)
  | .slice _ => (d, false)
  | .mask m => ({ d with sel := if m = [] then .all else .mask m }, true)
  | .index i => ({ d with sel := if i = [] then .all else .index i }, true)

/-- `DataService(…, selector=text)` (`service.py`, 49): the text is stored as it is. -/
def Svc.construct {α : Type} (d : Svc α) (t : String) : Svc α := { d with sel := .raw t }

end Larch.PodSelect
