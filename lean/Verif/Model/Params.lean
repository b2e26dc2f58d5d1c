import Verif.Model.Ext
import Mathlib.Data.String.Basic
import Mathlib.Data.List.Sort
import Mathlib.Data.List.Dedup

/-!
# The parameter frame

Model of `larch/model/parameter_frame.pyx` (`ParameterFrame`), the log likelihood caches of
`larch/model/abstract_model.pyx` (`_check_if_best`, `clear_best_loglike`, `loglike_null`) and the name scan of
`larch/model/controller.pyx` / `larch/numba/model.py`.

A parameter frame is a list of rows (the pandas index is the list of names).  Columns not modelled: `note`, and whatever
columns estimation adds (`std_err`, …).  Numbers are `X` (reals with infinities and NaN).  Change notifications
(`_check_if_frame_values_changed`) are not modelled: every evaluation re-reads the frame (`controller.pyx:847`,
`numba/model.py:1236-1241`).
-/

namespace Larch

/-- `pandas.isnull` / `numpy.isnan` on a number. -/
def X.isNaN : X → Bool
  | .nan => true
  | _ => false

end Larch

namespace Larch.Params

/-- A row of the frame, `parameter_frame.pyx:22-51`.  `holdfast` is an `int8`, NaN (`none`) only in rows created by
enlargement; `best` is the entry of the optional column `best`. -/
structure Row where
  name : String
  value : X
  init : X
  null : X
  min : X
  max : X
  holdfast : Option Int
  best : X

/-- The model's parameter state: rows, presence of the `best` column, `_mangled`, `_cached_loglike_best`,
`_cached_loglike_null`. -/
structure Frame where
  rows : List Row
  hasBest : Bool
  mangled : Bool
  bestLL : X
  cachedNull : X

/-- The index. -/
def Frame.names (f : Frame) : List String := f.rows.map Row.name

/-- `self._frame.loc[name]` (names are unique in every frame built by the API, see `C20_names_unique`). -/
def rowOf (rows : List Row) (n : String) : Option Row := rows.find? (fun r => r.name == n)

/-- `_empty_parameter_frame`, `parameter_frame.pyx:22-51`, one row; a `best` column, if present, gets NaN in the
concatenation. -/
def emptyRow (null init mn mx : X) (n : String) : Row :=
  ⟨n, init, init, null, mn, mx, some 0, .nan⟩

/-- `_ensure_names`, `parameter_frame.pyx:110-121`, `numba/model.py:1179-1191`: append a row for every name not yet in
the frame.  `names` is iterated once per element (callers pass sets). -/
def ensureNames (mk : String → Row) (rows : List Row) (names : List String) : List Row :=
  rows ++ (names.filter (fun n => n ∉ rows.map Row.name)).map mk

/-- The parameter names mentioned by a model specification, by the scanner that finds them
(`controller.pyx:292-371`, `numba/model.py:1160-1177`).  Each scanner collects a Python set, modelled by `dedup`. -/
structure Mentions where
  utility : List String
  quantity : List String
  logsum : List String

/-- `_scan_all_ensure_names`, `controller.pyx:286-290`, `parameter_frame.pyx:123-124`: utility and quantity names with default
settings, logsum names with null and initial value 1 and bounds 0.001 to 1, then sort by name. -/
noncomputable def scanAll (m : Mentions) (rows : List Row) : List Row :=
  let r1 := ensureNames (emptyRow (.fin 0) (.fin 0) .ninf .pinf) rows m.utility.dedup
  let r2 := ensureNames (emptyRow (.fin 0) (.fin 0) .ninf .pinf) r1 m.quantity.dedup
  let r3 := ensureNames (emptyRow (.fin 1) (.fin 1) (.fin (1 / 1000)) (.fin 1)) r2 m.logsum.dedup
  r3.insertionSort (fun a b => a.name ≤ b.name)

/-- `clear_best_loglike`, `abstract_model.pyx:53-56`. -/
def clearBest (f : Frame) : Frame := { f with hasBest := false, bestLL := .ninf }

/-- `mangle`, `abstract_model.pyx:49-51`, `parameter_frame.pyx:168-169`. -/
def mangle (f : Frame) : Frame := { clearBest f with mangled := true }

/-- `unmangle`, `controller.pyx:266-274` (the refresh of derived arrays is not modelled). -/
noncomputable def unmangle (m : Mentions) (force : Bool) (f : Frame) : Frame :=
  let f1 := if force then mangle f else f
  if f1.mangled || force then { f1 with rows := scanAll m f1.rows, mangled := false } else f1

/-- Keyword arguments of `set_value`: a number column, `holdfast`, or a name that is not a column (ignored). -/
inductive Kw where
  | value (x : X)
  | initvalue (x : X)
  | nullvalue (x : X)
  | minimum (x : X)
  | maximum (x : X)
  | holdfast (k : Int)
  | other

def Kw.isInit : Kw → Bool
  | .initvalue _ => true
  | _ => false

def Kw.isNull : Kw → Bool
  | .nullvalue _ => true
  | _ => false

/-- `self._frame.loc[name, k] = v`: writes one cell; a new label makes pandas append a row of NaN first. -/
def setCell (rows : List Row) (n : String) (f : Row → Row) : List Row :=
  if n ∈ rows.map Row.name then rows.map (fun r => if r.name = n then f r else r)
  else rows ++ [f ⟨n, .nan, .nan, .nan, .nan, .nan, none, .nan⟩]

/-- One turn of the loop of `set_value`, `parameter_frame.pyx:367-380`; `hasInit` is `'initvalue' in kwargs`. -/
def applyKw (hasInit : Bool) (n : String) (rows : List Row) : Kw → List Row
  | .value x =>
    let rows1 := setCell rows n (fun r => { r with value := x })
    if !hasInit then setCell rows1 n (fun r => if r.init.isNaN then { r with init := x } else r) else rows1
  | .initvalue x => setCell rows n (fun r => { r with init := x })
  | .nullvalue x => setCell rows n (fun r => { r with null := x })
  | .minimum x => setCell rows n (fun r => { r with min := x })
  | .maximum x => setCell rows n (fun r => { r with max := x })
  | .holdfast k => setCell rows n (fun r => { r with holdfast := some k })
  | .other => rows

/-- `set_value`, `parameter_frame.pyx:335-386`; `kwargs` in order, with `value` (when given) last.  The second component is
the exception, if any. -/
noncomputable def setValue (m : Mentions) (f : Frame) (n : String) (kwargs : List Kw) : Frame × Option String :=
  let f1 := if n ∈ f.names then f else unmangle m false f
  let rows := kwargs.foldl (applyKw (kwargs.any Kw.isInit) n) f1.rows
  if kwargs.any Kw.isNull then ({ f1 with rows := rows }, none)
  else if n ∈ rows.map Row.name then
    ({ f1 with rows := setCell rows n (fun r => if r.null.isNaN then { r with null := .fin 0 } else r) }, none)
  else ({ f1 with rows := rows }, some "KeyError")

/-- `lock_value(name, value)` with a number, `parameter_frame.pyx:388-424`. -/
noncomputable def lockValue (m : Mentions) (f : Frame) (n : String) (v : X) : Frame × Option String :=
  setValue m f n [.holdfast 1, .initvalue v, .nullvalue v, .minimum v, .maximum v, .value v]

/-- `lock_value(name, 'null')`, `parameter_frame.pyx:418-419`. -/
noncomputable def lockNull (m : Mentions) (f : Frame) (n : String) : Frame × Option String :=
  let f1 := unmangle m false f
  match rowOf f1.rows n with
  | none => (f1, some "KeyError")
  | some r => lockValue m f1 n r.null

/-- The words `set_values` knows, `parameter_frame.pyx:567-579` (compared ignoring case; `'init'` and `'initial'` are the same;
`other` is any other string). -/
inductive Word where
  | null
  | init
  | best
  | other

/-- The first argument of `set_values`. -/
inductive Arg where
  | none
  | key (s : Word)
  | arr (l : List X)
  | scalar (x : X)
  | dict (l : List (String × X))

/-- `dict.update` with one item. -/
def dictSet (d : List (String × X)) (k : String) (v : X) : List (String × X) :=
  if k ∈ d.map Prod.fst then d.map (fun p => if p.1 = k then (k, v) else p) else d ++ [(k, v)]

/-- `self._frame['holdfast'] == 0`. -/
def Row.free (r : Row) : Bool := r.holdfast = some 0

/-- The string arguments, `parameter_frame.pyx:567-579`; other strings go on as array-likes and raise. -/
def resolveKey (f : Frame) : Word → Except String (List X)
  | .null => .ok (f.rows.map Row.null)
  | .init => .ok (f.rows.map Row.init)
  | .best => if f.hasBest then .ok (f.rows.map Row.best) else .error "ValueError: best is not stored"
  | .other => .error "not an array of values"

/-- The array branch, `parameter_frame.pyx:583-597`. -/
def setArray (respect : Bool) (f : Frame) (vs : List X) : Frame × Option String :=
  if vs.length ≠ f.rows.length then (f, some "ValueError: wrong length")
  else if (f.rows.zip vs).any (fun p => (p.1.free || !respect) && p.2.isNaN) then (f, some "ValueError: NaN")
  else ({ f with rows := (f.rows.zip vs).map (fun p => if p.1.free || !respect then { p.1 with value := p.2 } else p.1) },
    none)

/-- The scalar branch, `parameter_frame.pyx:586-592`. -/
def setScalar (respect : Bool) (f : Frame) (x : X) : Frame :=
  { f with rows := f.rows.map (fun r => if r.free || !respect then { r with value := x } else r) }

/-- One keyword item, `parameter_frame.pyx:601-607`. -/
def setNamed (rows : List Row) (kv : String × X) : List Row :=
  rows.map (fun r => if r.name = kv.1 ∧ r.free then { r with value := kv.2 } else r)

/-- The keyword loop with its preceding scan, `parameter_frame.pyx:598-607`. -/
noncomputable def setKwargs (m : Mentions) (f : Frame) (kwargs : List (String × X)) : Frame :=
  if kwargs = [] then f
  else
    let rows := if f.mangled then scanAll m f.rows else f.rows
    { f with rows := kwargs.foldl setNamed rows }

/-- `set_values(values, respect_holdfast=…, **kwargs)`, `parameter_frame.pyx:518-608`. -/
noncomputable def setValues (m : Mentions) (f : Frame) (a : Arg) (respect : Bool) (kwargs : List (String × X)) :
    Frame × Option String :=
  match a with
  | .none => (setKwargs m f kwargs, none)
  | .dict d => (setKwargs m f (d.foldl (fun acc p => dictSet acc p.1 p.2) kwargs), none)
  | .scalar x => (setKwargs m (setScalar respect f x) kwargs, none)
  | .arr vs =>
    match setArray respect f vs with
    | (f1, some e) => (f1, some e)
    | (f1, none) => (setKwargs m f1 kwargs, none)
  | .key s =>
    match resolveKey f s with
    | .error e => (f, some e)
    | .ok vs =>
      match setArray respect f vs with
      | (f1, some e) => (f1, some e)
      | (f1, none) => (setKwargs m f1 kwargs, none)

/-- `_check_if_best`, `abstract_model.pyx:452-458` (called without `pvalues`). -/
noncomputable def checkIfBest (f : Frame) (ll : X) : Frame :=
  if ll.gt f.bestLL then
    { f with bestLL := ll, hasBest := true, rows := f.rows.map (fun r => { r with best := r.value }) }
  else f

/-- What the log likelihood is computed from: names and values. -/
def Frame.values (f : Frame) : List (String × X) := f.rows.map (fun r => (r.name, r.value))

/-- `loglike()` on all cases: unmangle, evaluate the current values (`L`, given by model and data; may raise), remember
the best; `controller.pyx:838-921`, `numba/model.py:1441-1485`. -/
noncomputable def loglike (m : Mentions) (L : List (String × X) → Except String X) (f : Frame) :
    Frame × Except String X :=
  let f1 := unmangle m false f
  match L f1.values with
  | .error e => (f1, .error e)
  | .ok ll => (checkIfBest f1 ll, .ok ll)

open Classical in
/-- `loglike_null`, `abstract_model.pyx:711-740`, with `use_cache=True` or `False`. -/
noncomputable def loglikeNull (m : Mentions) (L : List (String × X) → Except String X) (f : Frame) (useCache : Bool) :
    Frame × Except String X :=
  if f.cachedNull ≠ .fin 0 ∧ useCache = true then (f, .ok f.cachedNull)
  else
    let f0 := unmangle m false f
    let current := f0.rows.map Row.value
    match setValues m f0 (.key .null) true [] with
    | (f1, some e) => (f1, .error e)
    | (f1, none) =>
      match loglike m L f1 with
      | (f2, .error e) => (f2, .error e)
      | (f2, .ok ll) =>
        match setValues m { f2 with cachedNull := ll } (.arr current) true [] with
        | (f3, some e) => (f3, .error e)
        | (f3, none) => (f3, .ok ll)

end Larch.Params
