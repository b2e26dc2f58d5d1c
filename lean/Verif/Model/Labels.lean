import Verif.Model.Cases
import Verif.Model.Params

/-!
# Labels of the tables of results

Model of the labelling of `probability`, `utility`, `exputility` of the compiled models
(`larch/model/controller.pyx:957-1069`) and of `_wrap_as_dataframe`, `probability`, `utility`, `quantity`, `logsums` of the
numba models (`larch/numba/model.py:1558-1727`).

The numbers themselves are the subject of other models: here `val c` is the row of the array computed for the case at position
`c` (one number per node, alternatives first; per alternative for a compiled MNL model).  Rows of the array are the visited
cases in order (`C31_storage`, `C31_visits`; a slice for which the storage cannot be allocated is not modelled).  Column labels
(codes or names) are of any type; case identifiers are integers.
-/

namespace Larch.Labels

open Larch.Cases

/-- A labelled table. -/
structure Tbl (κ V : Type) where
  rows : List Int
  cols : List κ
  cells : List (List V)

/-- `pandas.DataFrame(data=arr, columns=cols, index=idx)` for a two-dimensional array with `w` columns: the labels must fit;
without index the rows are labelled by their positions. -/
def frame {κ V : Type} (cells : List (List V)) (w : Nat) (cols : List κ) (idx : Option (List Int)) :
    Except String (Tbl κ V) :=
  let rows := idx.getD ((List.range cells.length).map Int.ofNat)
  if rows.length = cells.length ∧ cols.length = w then .ok ⟨rows, cols, cells⟩
  else .error "ValueError: Shape of passed values"

/-- `DataFrame.stack()`: one entry per cell, row by row, NaN dropped. -/
def stack {κ V : Type} (isNaN : V → Bool) (t : Tbl κ V) : List ((Int × κ) × V) :=
  ((t.rows.zip t.cells).flatMap (fun rc => (t.cols.zip rc.2).map (fun kv => ((rc.1, kv.1), kv.2)))).filter
    (fun e => !isNaN e.2)

/-- `series[mask]` with a boolean array. -/
def pick {α : Type} (l : List α) (mask : List Bool) : Except String (List α) :=
  if l.length = mask.length then .ok ((l.zip mask).filterMap (fun p => if p.2 then some p.1 else none))
  else .error "IndexError: Boolean index has wrong length"

/-- `index[start:stop:step]` for positive step, `None` being the end of the index. -/
def slice (ids : List Int) (start stop step : Option Int) : List Int :=
  (numbaCases ids.length start stop step).filterMap (fun i => ids[i.toNat]?)

/-- The data of a compiled model as far as labels are concerned: case identifiers (of whatever data there is), whether there
are idco data, alternative codes, the nodes of the graph in standard order (elementals first), availability by case. -/
structure Data (κ : Type) where
  ids : List Int
  hasCo : Bool
  codes : List κ
  nodes : List κ
  avail : List (List Bool)

/-- `self._dataframes._data_co.index if self._dataframes._data_co is not None else None`, `controller.pyx:966,1036`. -/
def Data.coIndex {κ : Type} (d : Data κ) : Option (List Int) := if d.hasCo then some d.ids else none

/-- The index of `probability`, `controller.pyx:1035-1040`. -/
def probIndex {κ : Type} (d : Data κ) (start stop step : Int) : Option (List Int) :=
  d.coIndex.map (fun ids => slice ids (some start) (some (if stop = -1 then (ids.length : Int) else stop)) (some step))

/-- `probability(start_case=…, return_dataframe=True or 'names', include_nests=…)` of the compiled model,
`controller.pyx:1027-1062`; `w` is the number of columns of the array computed. -/
def probTable {κ V : Type} (d : Data κ) (w : Nat) (val : Int → List V) (start stop step : Int) (includeNests : Bool) :
    Except String (Tbl κ V) :=
  let arr := (pyRange start (effStop d.ids.length ⟨start, stop, step, -1, -1, -1⟩) step).map val
  let arr1 := if includeNests then arr else arr.map (fun r => r.take d.codes.length)
  let w1 := if includeNests then w else min w d.codes.length
  frame arr1 w1 (if includeNests then d.nodes else d.codes) (probIndex d start stop step)

/-- `probability(return_dataframe='idca')`, `controller.pyx:1057-1058`. -/
def probIdca {κ V : Type} (isNaN : V → Bool) (d : Data κ) (w : Nat) (val : Int → List V) (start stop step : Int)
    (includeNests : Bool) : Except String (List ((Int × κ) × V)) :=
  (probTable d w val start stop step includeNests).map (stack isNaN)

/-- `probability(return_dataframe='idce')`, `controller.pyx:1055-1056`: the mask is the availability of all cases. -/
def probIdce {κ V : Type} (isNaN : V → Bool) (d : Data κ) (w : Nat) (val : Int → List V) (start stop step : Int)
    (includeNests : Bool) : Except String (List ((Int × κ) × V)) :=
  (probTable d w val start stop step includeNests).bind (fun t => pick (stack isNaN t) d.avail.flatten)

/-- `utility(return_dataframe=True or 'names')` of the compiled model, `controller.pyx:975-989`: all cases; codes for MNL
models, nodes of the graph for others. -/
def utilTable {κ V : Type} (d : Data κ) (mnl : Bool) (w : Nat) (val : Int → List V) : Except String (Tbl κ V) :=
  frame ((pyRange 0 d.ids.length 1).map val) w (if mnl then d.codes else d.nodes) d.coIndex

/-- `exputility(return_dataframe=…)` of the compiled MNL model, `controller.pyx:957-973`: always the codes (other models do
not keep exponentiated utilities and raise). -/
def exputilTable {κ V : Type} (d : Data κ) (w : Nat) (val : Int → List V) : Except String (Tbl κ V) :=
  frame ((pyRange 0 d.ids.length 1).map val) w d.codes d.coIndex

/-- `utility(x)` of the compiled model, `controller.pyx:957-959,975-976`: the argument `x` is not used.  `F` computes the array
from the parameter values. -/
noncomputable def compiledUtility {A : Type} (m : Params.Mentions) (F : List (String × X) → A) (f : Params.Frame)
    (_x : Params.Arg) : A :=
  F (Params.unmangle m false f).values

/-- `probability(x)` of the compiled model, `controller.pyx:1031` (`loglike(x=x)` sets the values first,
`controller.pyx:838-848`), and `utility(x)` of the numba model, `numba/model.py:1670-1676`. -/
noncomputable def utilityAt {A : Type} (m : Params.Mentions) (F : List (String × X) → A) (f : Params.Frame)
    (x : Params.Arg) : Except String A :=
  match Params.setValues m (Params.unmangle m false f) x true [] with
  | (_, some e) => .error e
  | (f1, none) => .ok (F f1.values)

/-! ## numba -/

/-- `_wrap_as_dataframe`, `numba/model.py:1558-1590`, formats `True`, `'idco'`, `'names'`: the index is sliced with the arguments
given to this function, the columns are the first nodes of the graph. -/
def wrap {κ V : Type} (ids : List Int) (nodes : List κ) (w : Nat) (arr : List (List V)) (start stop step : Option Int) :
    Except String (Tbl κ V) :=
  frame arr w (nodes.take w) (some (slice ids start stop step))

/-- `probability(return_dataframe=True)`, `numba/model.py:1599-1627`; `w` nodes, of which `nElem` elemental. -/
def numbaProb {κ V : Type} (ids : List Int) (nodes : List κ) (nElem : Nat) (val : Int → List V)
    (start stop step : Option Int) (includeNests : Bool) : Except String (Tbl κ V) :=
  let arr := (numbaCases ids.length start stop step).map val
  if includeNests then wrap ids nodes nodes.length arr start stop step
  else wrap ids nodes (min nodes.length nElem) (arr.map (fun r => r.take nElem)) start stop step

/-- `utility(return_format='idco')`, `numba/model.py:1629-1682`. -/
def numbaUtil {κ V : Type} (ids : List Int) (nodes : List κ) (val : Int → List V) (start stop step : Option Int) :
    Except String (Tbl κ V) :=
  wrap ids nodes nodes.length ((numbaCases ids.length start stop step).map val) start stop step

/-- `quantity(return_dataframe=True)`, `numba/model.py:1684-1703`: the case arguments are not passed on to the labelling. -/
def numbaQuantity {κ V : Type} (ids : List Int) (nodes : List κ) (val : Int → List V) (start stop step : Option Int) :
    Except String (Tbl κ V) :=
  wrap ids nodes nodes.length ((numbaCases ids.length start stop step).map val) none none none

/-- The `'dataarray'` format, `numba/model.py:1576-1585`: the columns must be all the nodes. -/
def wrapArray {κ V : Type} (ids : List Int) (nodes : List κ) (w : Nat) (arr : List (List V)) (start stop step : Option Int) :
    Except String (Tbl κ V) :=
  frame arr w nodes (some (slice ids start stop step))

/-- `logsums(arr=out)`, `numba/model.py:1705-1727`: writes the logsums of the visited cases into the slice of the output (that
numpy repeats a single number over a longer slice is not modelled). -/
def numbaLogsumsInto {V : Type} (out : List V) (n : Nat) (ls : Int → V) (start stop step : Option Int) :
    Except String (List V) :=
  let dst := numbaCases out.length start stop step
  let src := (numbaCases n start stop step).map ls
  if dst.length = src.length then
    .ok ((dst.zip src).foldl (fun o p => o.set p.1.toNat p.2) out)
  else .error "ValueError: could not broadcast"

end Larch.Labels
