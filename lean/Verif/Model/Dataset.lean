import Mathlib.Algebra.Order.Field.Basic
import Mathlib.Algebra.BigOperators.Group.List.Basic

/-!
# Building datasets from data frames

Model of `Dataset.construct.from_idca` (`larch/dataset/construct.py:155-228`) with the parts it calls:
`dissolve_zero_variance` on variables with an alternatives dimension (`larch/dataset/flow.py:383-426`), `set_dtypes`
(`larch/dataset/patch.py:60-94`), `set_altnames` (`flow.py:205-241`), and of `alts_mapping` (`flow.py:327-334`) and
`query_cases` (`flow.py:500-538`).

Simplifications.
* Values are elements of an exact ordered field; `none` is NaN.  So the promotion of an integer column to floats when
  cells are missing, and the conversion back, are exact; and standard deviations are computed without rounding.
  Comparing a standard deviation with `1e-10` is comparing its square, the variance, with the square of `1e-10`.
* Column types are integer, float and other (`U`, `S`, `O`: never dissolved); Boolean columns are not modelled.
* The order of the case labels is not modelled (`xarray` sorts them): cells are addressed by labels.
* Coordinate variables take no part in `dissolve_zero_variance` (for one single alternative the real code would try to
  dissolve the alternative coordinate itself).
* Text labels that a given list of names does not contain (pandas codes them `-1`) are the error `notModelled`.
-/

namespace Larch.DatasetM

/-- Labels of alternatives in the index of a data frame. -/
inductive Label
  | int (i : Int)
  | str (s : String)
  deriving DecidableEq

/-- Column types, `dtype.kind`. -/
inductive Dt
  | int
  | flt
  | other
  deriving DecidableEq

/-- What can go wrong. -/
inductive Err
  /-- `cannot convert a DataFrame with a non-unique MultiIndex into xarray` -/
  | nonUnique
  /-- a `KeyError` -/
  | key
  /-- `conflicting sizes for dimension` -/
  | size
  /-- outside of the model -/
  | notModelled
  deriving DecidableEq

/-- A column of a data frame: its type and one value per row (`none` is NaN). -/
structure Col (K : Type) where
  dtype : Dt
  vals : List (Option K)

/-- A data frame with a two-level index.  A row is its case label and its code among the levels of the alternatives
(`index.codes[1]`); `levels` is `index.levels[1]`, which may hold labels that no row uses. -/
structure Frame (κ K : Type) where
  levels : List Label
  rows : List (κ × Nat)
  cols : List (String × Col K)

/-- The content of a variable: with or without the alternatives dimension. -/
inductive Arr (κ K : Type)
  | ca (v : κ → Label → Option K)
  | co (v : κ → Option K)

/-- A data variable. -/
structure Var (κ K : Type) where
  dtype : Dt
  arr : Arr κ K

/-- A dataset: the labels of its cases, the labels of its alternatives, the data variables and the other coordinates on
the alternatives dimension. -/
structure DS (κ K : Type) where
  cases : List κ
  alts : List Label
  vars : List (String × Var κ K)
  coords : List (String × List (Option String))

/-- Names of alternatives: a mapping from codes, or a sequence. -/
inductive Names
  | map (f : Label → Option String)
  | seq (l : List String)

/-- `fill_missing`: a scalar, or a mapping whose keys may be variable names and types. -/
inductive Fill (K : Type)
  | scalar (x : K)
  | map (byName : String → Option K) (byType : Dt → Option K)

section index
variable {κ K : Type} [DecidableEq κ]

/-- The label of the alternative of a row: `get_level_values(1)`. -/
def Frame.labelOf (f : Frame κ K) (code : Nat) : Option Label := f.levels[code]?

/-- `df.index.levels[1].dtype.kind == 'i'`, `construct.py:196`. -/
def isInt : Label → Bool
  | .int _ => true
  | .str _ => false

/-- `np.arange(1, n + 1)`. -/
def arange1 (n : Nat) : List Label := (List.range n).map (fun i => Label.int (i + 1 : Nat))

/-- The text of a label (`altnames = df.index.levels[1]`). -/
def Label.text : Label → String
  | .int i => toString i
  | .str s => s

/-- The code of a label in the categories `names`, `construct.py:201` (only text labels match names). -/
def catCode (names : List String) : Label → Option Nat
  | .int _ => none
  | .str s => if s ∈ names then some (names.idxOf s) else none

/-- `construct.py:195-202`: alternatives that are not integers get the integers `1, 2, …`.  The assignment is to
`df.index`, so the frame in the result is the caller's object afterwards. -/
def relabel (f : Frame κ K) (names : Option Names) : Except Err (Frame κ K × Option Names) :=
  if f.levels.all isInt then .ok (f, names) else
    match names with
    | none => .ok ({ f with levels := arange1 f.levels.length }, some (.seq (f.levels.map Label.text)))
    | some (.map _) => .error .notModelled
    | some (.seq l) =>
      match f.rows.mapM (fun r => ((f.labelOf r.2).bind (catCode l)).map (fun c => (r.1, c))) with
      | none => .error .notModelled
      | some rows => .ok ({ f with levels := arange1 l.length, rows := rows }, some (.seq l))

/-- The row of a label pair. -/
def Frame.find (f : Frame κ K) (c : κ) (a : Label) : Option Nat :=
  let i := f.rows.findIdx (fun r => decide (r.1 = c) && decide (f.labelOf r.2 = some a))
  if i < f.rows.length then some i else none

/-- The dense array of a column: NaN where there is no row. -/
def Frame.dense (f : Frame κ K) (col : Col K) (c : κ) (a : Label) : Option K :=
  match f.find c a with
  | none => none
  | some i => (col.vals[i]?).join

/-- `xarray.Dataset.from_dataframe`, called through `cls()(df, …)` in `construct.py:204`: needs a unique index; labels
that no row uses are removed from the alternatives. -/
def toDataset (f : Frame κ K) : Except Err (DS κ K) :=
  if f.rows.Nodup then
    .ok
      { cases := (f.rows.map Prod.fst).dedup
        alts := ((List.range f.levels.length).filter (fun i => decide (i ∈ f.rows.map Prod.snd))).filterMap f.labelOf
        vars := f.cols.map (fun nc => (nc.1, ⟨nc.2.dtype, .ca (f.dense nc.2)⟩))
        coords := [] }
  else .error .nonUnique

end index

section crack
variable {κ K : Type} [Field K] [LinearOrder K]

/-- The non-NaN values of a case. -/
def present (alts : List Label) (v : κ → Label → Option K) (c : κ) : List K := alts.filterMap (v c)

/-- `xr.DataArray.mean`, skipping NaN. -/
def mean (xs : List K) : K := xs.sum / xs.length

/-- The square of `xr.DataArray.std`, skipping NaN; NaN for an empty list. -/
def variance (xs : List K) : Option K :=
  if xs = [] then none else some ((xs.map (fun x => (x - mean xs) ^ 2)).sum / xs.length)

/-- `1e-10`, `flow.py:415`. -/
def tol : K := 1 / 10 ^ 10

/-- `obj[k].std(dim=dim).max() < 1e-10`, `flow.py:415`: NaN rows are skipped by `max`, which is NaN if all are. -/
def dissolves (cases : List κ) (alts : List Label) (v : κ → Label → Option K) : Bool :=
  let vs := cases.filterMap (fun c => variance (present alts v c))
  !vs.isEmpty && vs.all (fun s => decide (s < tol ^ 2))

/-- `obj[k].min(dim=dim)`, skipping NaN; NaN for an empty list. -/
def minOf : List K → Option K
  | [] => none
  | x :: xs => some (xs.foldl min x)

/-- One step of the loop of `dissolve_zero_variance`, `flow.py:410-420`. -/
def crackVar (cases : List κ) (alts : List Label) (x : Var κ K) : Var κ K :=
  match x.dtype, x.arr with
  | .other, _ => x
  | _, .co _ => x
  | d, .ca v => if dissolves cases alts v then ⟨d, .co (fun c => minOf (present alts v c))⟩ else x

/-- `dissolve_zero_variance` on a dataset without a case pointer, `flow.py:383-426`. -/
def crackDS (ds : DS κ K) : DS κ K :=
  { ds with vars := ds.vars.map (fun nv => (nv.1, crackVar ds.cases ds.alts nv.2)) }

end crack

section finish
variable {κ K : Type}

/-- Converting a NaN to an integer gives an arbitrary integer `junk`. -/
def cast (junk : K) (d : Dt) (x : Option K) : Option K :=
  match d, x with
  | .int, none => some junk
  | _, x => x

/-- `obj[k] = obj[k].astype(dtypes[k])`, `patch.py:84-88`. -/
def castVar (junk : K) (d : Dt) (x : Var κ K) : Var κ K :=
  match x.arr with
  | .ca v => ⟨d, .ca (fun c a => cast junk d (v c a))⟩
  | .co v => ⟨d, .co (fun c => cast junk d (v c))⟩

/-- The type of a named column. -/
def Frame.typeOf (f : Frame κ K) (k : String) : Option Dt := (f.cols.lookup k).map Col.dtype

/-- `set_dtypes(df)`, `patch.py:60-94`. -/
def setDtypes (junk : K) (f : Frame κ K) (ds : DS κ K) : DS κ K :=
  { ds with vars := ds.vars.map (fun nv =>
      match f.typeOf nv.1 with
      | none => nv
      | some d => (nv.1, castVar junk d nv.2)) }

/-- `set_altnames`, `flow.py:205-241`. -/
def setAltnames (ds : DS κ K) : Names → Except Err (DS κ K)
  | .map f => .ok { ds with coords := ("altnames", ds.alts.map f) :: ds.coords }
  | .seq l =>
    if l.length = ds.alts.length then .ok { ds with coords := ("altnames", l.map some) :: ds.coords } else .error .size

/-- `alts_mapping`, `flow.py:327-334`; `inr` is a name, `inl` the code itself. -/
def altsMapping (ds : DS κ K) : List (Label × (Label ⊕ Option String)) :=
  match ds.coords.lookup "alt_names" with
  | some l => ds.alts.zip (l.map Sum.inr)
  | none => ds.alts.zip (ds.alts.map Sum.inl)

/-- Replace a variable, or add it at the end (`ds[k] = …`). -/
def putVar (vars : List (String × Var κ K)) (k : String) (x : Var κ K) : List (String × Var κ K) :=
  if k ∈ vars.map Prod.fst then vars.map (fun nv => if nv.1 = k then (k, x) else nv) else vars ++ [(k, x)]

end finish

section main
variable {κ K : Type} [DecidableEq κ] [Field K] [LinearOrder K]

/-- `xr.DataArray.from_series(pd.Series(1, index=df.index)).fillna(0).astype(np.int8)`, `construct.py:212`. -/
def availVar (f : Frame κ K) : Var κ K :=
  ⟨.int, .ca (fun c a => some (if (f.find c a).isSome then 1 else 0))⟩

/-- `i.where(mask, filler)`. -/
def whereFill (mask : κ → Label → Bool) (filler : K) (v : κ → Label → Option K) : κ → Label → Option K :=
  fun c a => if mask c a then v c a else some filler

/-- The mask `ds['_avail_'] != 0` (NaN is not equal to 0); a `KeyError` if there is no such variable. -/
def availMask (vars : List (String × Var κ K)) : Except Err (κ → Label → Bool) :=
  match vars.lookup "_avail_" with
  | none => .error .key
  | some x => match x.arr with
    | .ca v => .ok (fun c a => decide (v c a ≠ some 0))
    | .co v => .ok (fun c _ => decide (v c ≠ some 0))

/-- The filler of a variable: `none` if the loop continues without filling, `construct.py:216-221` and `:225`.  The default
`fill_missing[i.dtype]` is evaluated even if the name is found. -/
def fillerFor (fill : Fill K) (k : String) (d : Dt) : Except Err (Option K) :=
  match fill with
  | .scalar x => .ok (some x)
  | .map byName byType =>
    if byName k = none ∧ byType d = none then .ok none
    else match byType d with
      | none => .error .key
      | some y => .ok (some ((byName k).getD y))

/-- One pass of the loops of `construct.py:215-227`; `x` is the variable called `k` at that moment. -/
def fillStep (fill : Fill K) (vars : List (String × Var κ K)) (k : String) : Except Err (List (String × Var κ K)) :=
  match vars.lookup k with
  | none => .ok vars
  | some x =>
    match x.arr with
    | .co _ => .ok vars
    | .ca v => do
      match ← fillerFor fill k x.dtype with
      | none => .ok vars
      | some y =>
        let mask ← availMask vars
        .ok (putVar vars k ⟨x.dtype, .ca (whereFill mask y v)⟩)

/-- The loops over `ds.items()`, `construct.py:214-227`: the names are those of the dataset when the loop starts, the newly
added availability variable among them. -/
def fillLoop (fill : Fill K) (vars : List (String × Var κ K)) : Except Err (List (String × Var κ K)) :=
  (vars.map Prod.fst).foldlM (fun vs k => fillStep fill vs k) vars

/-- `construct.py:211-227`; `n` is `len(df)`. -/
def addAvail (f : Frame κ K) (avail : String) (fill : Option (Fill K)) (ds : DS κ K) : Except Err (DS κ K) :=
  if avail ∉ ds.vars.map Prod.fst ∧ f.rows.length < ds.cases.length * ds.alts.length then
    let vars := putVar ds.vars avail (availVar f)
    match fill with
    | none => .ok { ds with vars := vars }
    | some g => do
      let vars ← fillLoop g vars
      .ok { ds with vars := vars }
  else .ok ds

/-- `set_altnames` if there are names, `construct.py:209-210`. -/
def nameAlts (ds : DS κ K) : Option Names → Except Err (DS κ K)
  | none => .ok ds
  | some n => setAltnames ds n

/-- `from_idca`, `construct.py:155-228`.  The result is the dataset and the caller's data frame afterwards.  `junk` is what
the conversion of NaN to an integer gives. -/
def fromIdca (junk : K) (f : Frame κ K) (crack : Bool) (names : Option Names) (avail : String)
    (fill : Option (Fill K)) : Except Err (DS κ K × Frame κ K) := do
  let (f', names') ← relabel f names
  let ds ← toDataset f'
  let ds := if crack then crackDS ds else ds
  let ds := setDtypes junk f' ds
  let ds ← nameAlts ds names'
  let ds ← addAvail f' avail fill ds
  .ok (ds, f')

end main

section query
variable {κ K : Type}

/-- `query_cases` on a dataset whose variables have a cases dimension, `flow.py:500-538`: `Dataset.query` indexes every array
along the cases dimension with the Boolean result of the expression.  Arrays addressed by label stay what they are; the
labels are filtered. -/
def queryCases (p : κ → Bool) (ds : DS κ K) : DS κ K := { ds with cases := ds.cases.filter p }

/-- The case part of an `idce` dataset (`construct.py:270-299`): labels and `idco` variables have the cases dimension; data
rows have the case-alternative dimension; case pointers have their own dimension. -/
structure CeDS (κ V W : Type) where
  cases : List κ
  coVars : List (String × List W)
  rows : List V
  casePtr : List Nat

/-- `query_cases` on an `idce` dataset: only arrays with the cases dimension are indexed. -/
def ceQueryCases {V W : Type} (sel : List Bool) (ds : CeDS κ V W) : CeDS κ V W :=
  { ds with
    cases := ((ds.cases.zip sel).filter Prod.snd).map Prod.fst
    coVars := ds.coVars.map (fun nv => (nv.1, ((nv.2.zip sel).filter Prod.snd).map Prod.fst)) }

/-- The rows of case number `i` as the estimation code sees them (`flow.py:561-566`: pointers `i` and `i + 1`). -/
def CeDS.caseRows {V W : Type} (ds : CeDS κ V W) (i : Nat) : List V :=
  (ds.rows.drop (ds.casePtr.getD i 0)).take (ds.casePtr.getD (i + 1) 0 - ds.casePtr.getD i 0)

end query

end Larch.DatasetM
