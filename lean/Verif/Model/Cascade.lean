import Verif.Model.Graph

/-!
# Rolling availability and choices up to nests (`larch/dataframes.pyx:1731-1756, 1790-1817`)

One case; a row of the frame is a function of the node.
-/

namespace Larch.Cascade

open Larch.Graph

variable {K : Type}

/-- Lines 1748-1753, 1808-1813: a frame of zeros with a column per node, whose first columns (the elemental alternatives of the graph) are set from
the columns of the data, by position. -/
def start (zero : K) (std : List Int) (nElem : Nat) (vals : List K) : Int → K :=
  fun n => if std.idxOf n < nElem then vals.getD (std.idxOf n) zero else zero

/-- The inner loop of lines 1754-1756 (1814-1816) for the column `dn`: `result[up] |= result[dn]` (`+=`). -/
def rollNode (op : K → K → K) (g : G) (r : Int → K) (dn : Int) : Int → K :=
  ((g.inEdges dn).map Edge.u).foldl (fun r up => fun n => if n = up then op (r up) (r dn) else r n) r

/-- The loops of lines 1754-1756 (1814-1816). -/
def roll (op : K → K → K) (g : G) (l : List Int) (r : Int → K) : Int → K := l.foldl (rollNode op g) r

/-- `data_av_cascade(graph)`, one row; `none` when the graph has no standard order or the numbers of columns differ. -/
def avCascade (g : G) (av : List Bool) : Option (Int → Bool) :=
  (elementals g).bind fun alts => (standardSort g).bind fun std =>
    if av.length = alts.length then some (roll (fun a b => a || b) g std (start false std alts.length av)) else none

/-- `data_ch_cascade(graph)`, one row (the number of columns set is that of the choice data). -/
def chCascade [Zero K] [Add K] (g : G) (ch : List K) : Option (Int → K) :=
  (standardSort g).bind fun std =>
    if ch.length ≤ std.length then some (roll (fun a b => a + b) g std (start 0 std ch.length ch)) else none

/-! ## The numba engine (`larch/numba/cascading.py`) -/

/-- `cascade_or` and `cascade_sum`, lines 5-15, for one case: the edges in the order of the arrays. -/
def slotRoll (op : K → K → K) (ps : List (Nat × Nat)) (r : Nat → K) : Nat → K :=
  ps.foldl (fun r p => fun k => if k = p.1 then op (r p.1) (r p.2) else r k) r

/-- `array_ch_cascade(arr, graph)`, lines 108-118 (`array_av_cascade`, lines 82-88, with another operation), one row: zeros for all nodes, the first
columns (one for each alternative of the graph) set from the data, then the loop over the edge arrays; by slots.  numpy's broadcast of data with a
single column is not modelled. -/
def nbCascade (op : K → K → K) (zero : K) (g : G) (vals : List K) : Option (Nat → K) :=
  (elementals g).bind fun alts => (standardSort g).bind fun std =>
    if vals.length = alts.length then
      (edgeSlotArrays g std).map fun e =>
        slotRoll op (e.1.zip e.2.1) (fun k => if k < alts.length then vals.getD k zero else zero)
    else none

end Larch.Cascade
