import Verif.Model.Dataset

/-!
# The cases and alternatives of a dataset

Model of `_initialize_for_larch` (`larch/dataset/construct.py:19-86`), which `Dataset.construct(source, caseid=, alts=)`, `from_idco` and
`larch.merge` (`larch/dataset/__init__.py:1291-1380`) end with, of the setters of `dc.CASEID`, `dc.ALTID` (`larch/dataset/flow.py:65-92`),
`set_altids` (`flow.py:143-202`), `altids` (`flow.py:307-315`) and `alts_mapping` (`flow.py:327-334`).

A dataset is seen along single dimensions: a variable is the name of a dimension and the list of its values along it (other dimensions
play no role).  `xarray`: assigning a coordinate along its own dimension replaces the labels, position by position, and raises when the
dimension exists with another size; a coordinate called like no dimension makes a new one.
-/

namespace Larch.AltSpec

open Larch.DatasetM (Label)

/-- What can go wrong. -/
inductive Fault
  /-- `no dim named '...' to make into _caseid_`, `cannot set ..., ... not in dims` -/
  | noDim
  /-- conflicting sizes -/
  | size
  /-- no name for the dimension of an array (`MissingDimensionsError`) -/
  | noName
  /-- a `KeyError` -/
  | key
  deriving DecidableEq

/-- A dataset. -/
structure Data (K : Type) where
  dims : List (String × Nat)
  coords : List (String × List Label)
  vars : List (String × String × List K)
  caseid : Option String
  altid : Option String
  groupid : Option String
  /-- the coordinate `alt_names` and its dimension -/
  altNames : Option (String × List Label)

variable {K : Type}

/-- `alts`: a `Series` (its name, the name of its index), a mapping, the name of a dimension, an array (with the attribute `name`, if
it has one), or `None`. -/
inductive Alts
  | series (name indexName : Option String) (keys values : List Label)
  | mapping (keys values : List Label)
  | dim (name : String)
  | array (name : Option (Option String)) (codes : List Label)
  | none

/-- `np.issubdtype(values, np.integer)` of an array made from a list: an empty list makes an array of floats. -/
def allInt (l : List Label) : Bool := !l.isEmpty && l.all Larch.DatasetM.isInt

/-- `obj.coords[d] = labels`. -/
def setCoord (d : String) (labels : List Label) (o : Data K) : Except Fault (Data K) :=
  match o.dims.lookup d with
  | some k =>
    if k = labels.length then .ok { o with coords := (d, labels) :: o.coords.filter fun c => c.1 ≠ d } else .error .size
  | none => .ok { o with dims := (d, labels.length) :: o.dims, coords := (d, labels) :: o.coords }

/-- `obj.coords['alt_names'] = names` along the dimension `d`, which exists. -/
def setNames (d : String) (names : List Label) (o : Data K) : Except Fault (Data K) :=
  if o.dims.lookup d = some names.length then .ok { o with altNames := some (d, names) } else .error .size

/-- `construct.py:38-41`. -/
def initCase (caseid : Option String) (o : Data K) : Except Fault (Data K) :=
  match caseid with
  | none => .ok o
  | some c => if c ∈ o.dims.map Prod.fst then .ok { o with caseid := some c } else .error .noDim

/-- Codes and names, `construct.py:77-83`. -/
def initPairs (d : String) (keys values : List Label) (o : Data K) : Except Fault (Data K) :=
  if allInt values && !allInt keys then (setCoord d values { o with altid := some d }).bind (setNames d keys)
  else (setCoord d keys { o with altid := some d }).bind (setNames d values)

/-- `a or b`. -/
def orElse (a : Option String) (b : String) : String :=
  match a with
  | none => b
  | some s => if s = "" then b else s

/-- `construct.py:42-85`.  (Left out: a mapping with the empty name.) -/
def initAlts (alts : Alts) (o : Data K) : Except Fault (Data K) :=
  match alts with
  | .none => .ok o
  | .dim d => .ok { o with altid := if d = "" then o.altid else some d }
  | .series nm ix k v => initPairs (orElse nm (orElse ix "_altid_")) k v o
  | .mapping k v => initPairs "_altid_" k v o
  | .array nm codes =>
    match nm.getD (some "_altid_") with
    | none => .error .noName
    | some d => setCoord d codes { o with altid := some d }

/-- `_initialize_for_larch(obj, caseid, alts)`, `construct.py:19-86`. -/
def initFor (caseid : Option String) (alts : Alts) (o : Data K) : Except Fault (Data K) := (initCase caseid o).bind (initAlts alts)

/-- `dc.altids()`, `flow.py:307-315`. -/
def altids (o : Data K) : Except Fault (List Label) :=
  match o.altid with
  | none => .error .key
  | some d =>
    match o.coords.lookup d with
    | none => .error .key
    | some l => .ok l

/-- `dc.alts_mapping`, `flow.py:327-334`: the names of the alternatives, or the codes themselves.  (The coordinate `alt_names` is seen by
the coordinate of the alternatives if it has the same dimension.) -/
def altsMapping (o : Data K) : Except Fault (List (Label × Label)) :=
  (altids o).map fun l =>
    match o.altNames with
    | some (d, names) => if some d = o.altid then l.zip names else l.zip l
    | none => l.zip l

/-- The value of the variable `k` for the alternative labelled `a`: `ds[k].sel({ALTID: a})`. -/
def valueFor (o : Data K) (d : String) (k : String) (a : Label) : Option K :=
  match o.coords.lookup d, o.vars.lookup k with
  | some l, some (d', v) => if d' = d ∧ a ∈ l then v[l.idxOf a]? else none
  | _, _ => none

/-- `dc.CASEID = name`, `flow.py:70-82`: `check_dim=self.GROUPID is not None`. -/
def setCaseid (name : Option String) (o : Data K) : Except Fault (Data K) :=
  match name with
  | none => .ok { o with caseid := none }
  | some c => if o.groupid.isSome ∧ c ∉ o.dims.map Prod.fst then .error .noDim else .ok { o with caseid := some c }

/-- `dc.ALTID = name`, `flow.py:70-92`. -/
def setAltid (name : Option String) (o : Data K) : Except Fault (Data K) :=
  match name with
  | none => .ok { o with altid := none }
  | some c => if c ∉ o.dims.map Prod.fst then .error .noDim else .ok { o with altid := some c }

/-- `set_altids(altids, dim_name)`, `flow.py:143-202`, for an array with attribute `name` or without (`none`). -/
def setAltids (codes : List Label) (arrName dimName : Option String) (o : Data K) : Except Fault (Data K) :=
  let d := orElse dimName (orElse arrName (o.altid.getD "_altid_"))
  (setCoord d codes o).bind (setAltid (some d))

/-! ## merging -/

/-- The options of `xarray.merge`. -/
structure Opts where
  compat : String
  join : String
  fill : Option String
  attrs : String

/-- `compat="no_conflicts", join="outer", fill_value=dtypes.NA, combine_attrs="override"`. -/
def stdOpts : Opts := ⟨"no_conflicts", "outer", none, "override"⟩

/-- `larch.merge(objects, compat, join, fill_value, combine_attrs, caseid=, alts=)`, `dataset/__init__.py:1291-1380`; `xr` is
`xarray.merge`. -/
def merge {O : Type} (xr : Opts → List O → Except Fault (Data K)) (_opts : Opts) (caseid : Option String) (alts : Alts) (objects : List O) :
    Except Fault (Data K) :=
  (xr stdOpts objects).bind (initFor caseid alts)

end Larch.AltSpec
