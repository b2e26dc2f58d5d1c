import Verif.Model.PodSelect

/-!
# Pods that look their data up (`larch/data_services/h5/h5pod/idrc.py`, `idga.py`, `id0a.py`, `idcs.py`)

A stored array, or the value of an expression of stored arrays, is the matrix here; a load that raises is `none`.  Arrays to be filled
have the shape that the pod asks for (`_sqz_same`), unless said otherwise.
-/

namespace Larch.Lookup

open Larch.PodSelect (Sel positions takeAt selLen wrapIndex readCol)

variable {α : Type}

/-- `a[selector]` of an array with one dimension, `idrc.py:106`, `idga.py:85`. -/
def pickIndex (s : Sel) (a : List Int) : Option (List Int) := (positions s a.length).bind (takeAt a)

/-- Row `r` of a matrix, with the indexing of numpy. -/
def rowAt (M : List (List α)) (r : Int) : Option (List α) := (wrapIndex M.length r).bind (fun k => M[k.toNat]?)

/-- `temp[r, c]` for a pair of numbers. -/
def cellOf (M : List (List α)) (e : Int × Int) : Option α :=
  (rowAt M e.1).bind (fun row => (wrapIndex row.length e.2).bind (fun k => row[k.toNat]?))

/-- Two index arrays used together, `idrc.py:106, 108`: one of length one goes with all of the other. -/
def pairUp (a b : List Int) : Option (List (Int × Int)) :=
  if a.length = b.length then some (a.zip b)
  else if a.length = 1 then some (b.map (fun c => (a.headD 0, c)))
  else if b.length = 1 then some (a.map (fun r => (r, b.headD 0)))
  else none

/-- `result[:] = v` for a result with `k` rows. -/
def fillRows {β : Type} (k : Nat) (v : List β) : Option (List β) :=
  if v.length = k then some v else
    match v with
    | [x] => some (List.replicate k x)
    | _ => none

/-- `colindexes` or `rowindexes` given as a number, `idrc.py:23, 28`. -/
def constIndex (like : List Int) (k : Int) : List Int := List.replicate like.length k

/-- `H5PodRC.load_data_item`, `idrc.py:95-109`. -/
def loadRC (M : List (List α)) (ri ci : List Int) (s : Sel) : Option (List α) :=
  (selLen s ri.length).bind (fun k => (pickIndex s ri).bind (fun r => (pickIndex s ci).bind (fun c =>
    (pairUp r c).bind (fun es => (es.mapM (cellOf M)).bind (fillRows k)))))

/-- `H5PodRCasCA.load_data_item`, `idrc.py:122-134`: the same for all of `nAlts` alternatives. -/
def loadRCasCA (M : List (List α)) (ri ci : List Int) (nAlts : Nat) (s : Sel) : Option (List (List α)) :=
  (loadRC M ri ci s).map (fun v => v.map (List.replicate nAlts))

/-- `_sqz`, `general.py:7-12`: ones at the end are dropped. -/
def sqz (shape : List Nat) : List Nat := (shape.reverse.dropWhile (fun d => d = 1)).reverse

/-- The row indexes of an idga pod, `idga.py:24-27`: those given as an array are squeezed, so a single one is left without dimension. -/
inductive RowIx where
  | one (r : Int)
  | many (l : List Int)

def makeRowIx (asArray : Bool) (l : List Int) : RowIx :=
  match l with
  | [r] => if asArray then .one r else .many [r]
  | l => .many l

/-- `H5PodGA.shape`, `idga.py:61-66`. -/
def shapeGA (nAlts : Nat) : RowIx → List Nat
  | .one _ => [nAlts]
  | .many l => [l.length, nAlts]

/-- `H5PodGA.load_data_item`, `idga.py:77-89`, into an array of `k` rows of `nAlts` numbers.  An array without dimension cannot be selected from. -/
def loadGA (M : List (List α)) (ix : RowIx) (nAlts : Nat) (s : Sel) (k : Nat) : Option (List (List α)) :=
  (selLen s ((shapeGA nAlts ix).headD 0)).bind (fun m =>
    if sqz [k, nAlts] ≠ sqz (m :: (shapeGA nAlts ix).tail) then none
    else match ix with
      | .one r => if s = .all then (rowAt M r).map (fun row => List.replicate k row) else none
      | .many l => (pickIndex s l).bind (fun rs => (rs.mapM (rowAt M)).bind (fillRows k)))

/-- `H5Pod0A.load_data_item`, `id0a.py:60-74`, for `nCases` cases: the single row of the stored array; squeezed, `temp[None,:]` raises when
the row has one number. -/
def loadShared (M : List (List α)) (nCases : Nat) (s : Sel) : Option (List (List α)) :=
  (selLen s nCases).bind (fun k =>
    match M with
    | [row] => if row.length = 1 then none else some (List.replicate k row)
    | _ => none)

/-- `_get_list_from_bunchname`, `idcs.py:209-221`: for every alternative its expression, `'0'` when the bunch has none. -/
def bunchItems (bunch : List (Int × String)) (codes : List Int) : List String := codes.map (fun a => (bunch.lookup a).getD "0")

/-- `H5PodCS.load_data_item`, `idcs.py:269-287`: a column for each alternative, read from the pods it stacks (`eval` gives the values of
an expression for all `n` cases). -/
def loadStack (eval : String → Option (List α)) (n : Nat) (codes : List Int) (bunches : List (String × List (Int × String))) (name : String)
    (s : Sel) : Option (List (List α)) :=
  if codes = [] then none
  else (bunches.lookup name).bind (fun bunch => (bunchItems bunch codes).mapM (fun cmd => (eval cmd).bind (readCol n s)))

end Larch.Lookup
