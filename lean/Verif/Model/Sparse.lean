import Mathlib.Logic.Function.Basic

/-!
# Sparse (idce) arrays

Model of `ce_to_dense`, `ce_bool_to_dense` (`larch/numba/data_arrays.py:577-608`), `case_ptr_to_indexes` and
`ce_dissolve_zero_variance` (`larch/dataset/flow.py:12-53`).

`ends` is the array `ce_caseptr1` (the end row of every case: `ce_caseptr[1:]`, or the last column of a
two-column pointer array).  Arrays are functions; a write is an update.  The reads `ce_caseptr1[c]` are unchecked
in numba; past the end the model reads `none`, which equals no row number (only reachable when there are more rows than
the last pointer says).
-/

namespace Larch.Sparse

open Function

/-- `if row == ce_caseptr1[c]: c += 1`, `data_arrays.py:587-588, 603-604`. -/
def bump (ends : List Nat) (c row : Nat) : Nat := if ends[c]? = some row then c + 1 else c

/-- `out[c,a] = v`. -/
def put {α : Type} (out : Nat → Nat → α) (c a : Nat) (v : α) : Nat → Nat → α :=
  update out c (update (out c) a v)

/-- Loop of `ce_to_dense`, `data_arrays.py:584-591`, for one data column; `rows` are the remaining
`(ce_altidx[row], ce_data[row])` starting at row number `row`. -/
def denseLoop {α : Type} (ends : List Nat) : List (Nat × α) → Nat → Nat → (Nat → Nat → α) → (Nat → Nat → α)
  | [], _, _, out => out
  | (a, v) :: rest, row, c, out =>
    let c' := bump ends c row
    denseLoop ends rest (row + 1) c' (put out c' a v)

/-- `ce_to_dense`, `data_arrays.py:577-591`. -/
def ceToDense {α : Type} [Zero α] (ends : List Nat) (rows : List (Nat × α)) : Nat → Nat → α :=
  denseLoop ends rows 0 0 (fun _ _ => 0)

/-- `ce_bool_to_dense`, `data_arrays.py:593-608`: the same loop writing 1. -/
def ceBoolToDense (ends : List Nat) (alts : List Nat) : Nat → Nat → Nat :=
  denseLoop ends (alts.map (fun a => (a, 1))) 0 0 (fun _ _ => 0)

/-- `case_index[lo:hi] = c`. -/
def fillSlice (idx : Nat → Nat) (lo hi c : Nat) : Nat → Nat :=
  fun r => if lo ≤ r ∧ r < hi then c else idx r

/-- `case_ptr_to_indexes`, `flow.py:12-18`; `ptrs` is the full pointer array (one more entry than cases). -/
def casePtrToIndexes (ptrs : List Nat) : Nat → Nat :=
  (List.range (ptrs.length - 1)).foldl (fun idx c => fillSlice idx (ptrs.getD c 0) (ptrs.getD (c + 1) 0) c)
    (fun _ => 0)

/-- Loop of `ce_dissolve_zero_variance`, `flow.py:44-52`: returns the array and the failure flag. -/
def dissolveLoop {α : Type} [BEq α] (ends : List Nat) : List α → Nat → Nat → (Nat → α) → (Nat → α) × Bool
  | [], _, _, out => (out, false)
  | v :: rest, row, c, out =>
    if ends[c]? = some row then dissolveLoop ends rest (row + 1) (c + 1) (update out (c + 1) v)
    else if out c != v then (out, true)
    else dissolveLoop ends rest (row + 1) c out

/-- `ce_dissolve_zero_variance`, `flow.py:20-53`; `out[0] = ce_data[0]` needs at least one row. -/
def dissolve {α : Type} [BEq α] [Zero α] (ends : List Nat) (data : List α) : Option ((Nat → α) × Bool) :=
  match data with
  | [] => none
  | v :: _ => some (dissolveLoop ends data 0 0 (update (fun _ => 0) 0 v))

end Larch.Sparse

namespace Larch.Sparse

/-- Scan for `np.where(np.diff(codes, prepend=nan, append=nan))[0]`, `larch/dataset/construct.py:284-287`: the
positions where the code differs from the previous one; the first position always counts (difference with NaN), and so
does the position after the last row. -/
def ptrFrom (prev : Option Nat) (i : Nat) : List Nat → List Nat
  | [] => [i]
  | c :: rest => if prev = some c then ptrFrom (some c) (i + 1) rest else i :: ptrFrom (some c) (i + 1) rest

/-- What `from_idce` stores about cases (`larch/dataset/construct.py:276-287`): the case labels are `index.levels[0]`, the
case pointers are computed from `index.codes[0]` in the order of the rows. -/
structure IdceIndex (κ : Type) where
  levels : List κ
  codes : List Nat

/-- `ds.coords[case_pointer]`. -/
def IdceIndex.casePtr {κ : Type} (x : IdceIndex κ) : List Nat := ptrFrom none 0 x.codes

/-- `ds.coords[caseidname]`. -/
def IdceIndex.caseIds {κ : Type} (x : IdceIndex κ) : List κ := x.levels

/-- The case label of a row of the data frame. -/
def IdceIndex.rowLabel {κ : Type} (x : IdceIndex κ) (row : Nat) : Option κ :=
  x.codes[row]?.bind (fun c => x.levels[c]?)

end Larch.Sparse
