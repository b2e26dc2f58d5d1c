import Mathlib.Data.List.Basic

/-!
# Selecting cases of a Dataset, and saving arrays

Models `query_cases` of a Dataset (`larch/dataset/flow.py:495-534`) and `to_zarr`, `from_zarr` of a DataArray (`larch/dataset/__init__.py:90-136`).

A dataset has variables by case (idco), by case and alternative (idca), and by row of an idce frame, with the positions of alternatives and the case pointers
(`construct.py:231-302`).  `xarray`'s `query` along a dimension computes one truth value for each label, from the variables along it, and keeps the places where it is
true in every variable along that dimension; all other variables are left.  The expression of the query is a function of the values of a case.
-/

namespace Larch.QueryCases

variable {L K : Type}

structure DS (L K : Type) where
  caseids : List L
  co : List (String × List K)
  ca : List (String × List (List K))
  altidx : List Nat
  ptr : List Nat
  ce : List (String × List K)

/-- The entries at the places that are true. -/
def keep {α : Type} : List Bool → List α → List α
  | true :: m, a :: l => a :: keep m l
  | false :: m, _ :: l => keep m l
  | _, _ => []

/-- The values of the case at a place. -/
def coRow (D : DS L K) (i : Nat) (v : String) : Option K := (D.co.lookup v).bind (fun l => l[i]?)

/-- The truth values of a query. -/
def mask (p : (String → Option K) → Bool) (D : DS L K) : List Bool := (List.range D.caseids.length).map (fun i => p (coRow D i))

/-- `ds.dc.query_cases(query)`. -/
def query (p : (String → Option K) → Bool) (D : DS L K) : DS L K :=
  { D with
    caseids := keep (mask p D) D.caseids
    co := D.co.map (fun e => (e.1, keep (mask p D) e.2))
    ca := D.ca.map (fun e => (e.1, keep (mask p D) e.2)) }

variable [DecidableEq L]

/-- The place of a case. -/
def place (D : DS L K) (c : L) : Option Nat := if c ∈ D.caseids then some (D.caseids.idxOf c) else none

/-- `ds[v].sel(caseid=c)`. -/
def coValue (D : DS L K) (c : L) (v : String) : Option K := (place D c).bind (fun i => coRow D i v)

/-- The value of an idca variable for a case and the alternative at place `a`. -/
def caValue (D : DS L K) (c : L) (v : String) (a : Nat) : Option K :=
  (place D c).bind (fun i => (D.ca.lookup v).bind (fun l => (l[i]?).bind (fun r => r[a]?)))

/-- The row of an idce variable for the case at place `i` and the alternative at place `a`, as the models read it
(`larch/dataset/flow.py:557-562` and the kernels of `larch/numba/model.py`): among the rows from one pointer to the next. -/
def ceRow (D : DS L K) (i : Nat) (v : String) (a : Nat) : Option K :=
  match D.ptr[i]?, D.ptr[i + 1]? with
  | some lo, some hi =>
    ((List.range' lo (hi - lo)).find? (fun r => D.altidx[r]? = some a)).bind (fun r => (D.ce.lookup v).bind (fun l => l[r]?))
  | _, _ => none

def ceValue (D : DS L K) (c : L) (v : String) (a : Nat) : Option K := (place D c).bind (fun i => ceRow D i v a)

/-! ## Zarr stores -/

variable {V : Type}

/-- A DataArray: its name, the names of its coordinates, and the rest. -/
structure Arr (V : Type) where
  name : Option String
  coords : List String
  body : V
deriving DecidableEq

/-- A dataset in a store: its variables and coordinates. -/
structure Stored (V : Type) where
  vars : List (String × V)
  coords : List String
deriving DecidableEq

abbrev Files (V : Type) := String → Option (Stored V)

/-- `DATAARRAY_VARIABLE`. -/
def generic : String := "__xarray_dataarray_variable__"

/-- `to_dataset`: a name that is that of a coordinate raises. -/
def toDataset (a : Arr V) : Except String (Stored V) :=
  match a.name with
  | none => .ok ⟨[(generic, a.body)], a.coords⟩
  | some n => if n ∈ a.coords then .error "ValueError" else .ok ⟨[(n, a.body)], a.coords⟩

/-- `str(store).endswith('.zip')`. -/
def isZip (path : String) : Bool := ".zip".toList.isSuffixOf path.toList

/-- `array.to_zarr(store)` with a path, `__init__.py:90-125`: for other names than of zip files `dataset.to_zarr()` is called without the path,
which makes a store in memory. -/
def toZarr (fs : Files V) (a : Arr V) (path : String) : Except String (Files V) :=
  match toDataset a with
  | .error e => .error e
  | .ok d => if isZip path then .ok (fun q => if q = path then some d else fs q) else .ok fs

/-- `DataArray.from_zarr(path)`, `__init__.py:127-136`. -/
def fromZarr (fs : Files V) (path : String) : Except String (Arr V) :=
  match fs path with
  | none => .error "FileNotFoundError"
  | some d =>
    match d.vars.filter (fun e => e.1 ∉ d.coords) with
    | [(n, b)] => .ok ⟨some n, d.coords, b⟩
    | _ => .error "ValueError"

end Larch.QueryCases
