import Verif.Model.Kernel

/-!
# From names to slots: linking a model specification to its data

Model of `larch/numba/model.py` lines 776-866 (`model_co_slots`, `model_u_ca_slots`, `model_q_ca_slots`) for a `DataFrames`, of
`larch/dataframes.pyx` lines 1870-1893 (`data_ca_or_ce`), 2000-2062 (`_check_data_is_sufficient_for_model`) and 2107-2201
(`_link_to_model_structure`), and of the scan for parameter names, `larch/model/controller.pyx` lines 285-360.
-/

namespace Larch.Slots

open Larch.Kernel

/-- A term of a linear function as the user writes it: `P(param) * X(data) * scale` (`LinearComponent_C`, `larch/model/linear.pyx`). -/
structure NTerm where
  param : String
  data : String
  scale : ℝ

/-- `utility_co` (functions by alternative code), `utility_ca`, `quantity_ca` and `quantity_scale` of a model. -/
structure NSpec where
  co : List (Int × List NTerm)
  ca : List NTerm
  q : List NTerm
  qScale : Option String

/-- What the linking reads: the index of the parameter frame, the alternative codes, and the columns of `data_co`, `data_ca` and
`data_ce` (`none` for a missing table). -/
structure Table where
  params : List String
  alts : List Int
  co : Option (List String)
  ca : Option (List String)
  ce : Option (List String)

/-- `index.get_loc(a)` stored in an integer array: `none` for the `KeyError` of a missing label, and for a label that occurs more
than once, where `get_loc` gives a slice or mask that cannot be stored. -/
def getLoc {α : Type} [DecidableEq α] (l : List α) (a : α) : Option Nat := if l.count a = 1 then some (l.idxOf a) else none

/-- `param_loc[a]`, `data_loc[a]`: the dictionary filled by `for n, name in enumerate(..): loc[name] = n` (a later column wins);
`none` for `KeyError`.  `larch/numba/model.py:785-798`, `larch/dataframes.pyx:2175-2180`. -/
def dictLoc (l : List String) (a : String) : Option Nat :=
  l.zipIdx.foldl (fun d e => if e.1 = a then some e.2 else d) none

/-- A loop that fills an array entry by entry and stops at the first exception. -/
def allOf {α β : Type} (f : α → Option β) : List α → Option (List β)
  | [] => some []
  | a :: l => (f a).bind fun b => (allOf f l).map fun r => b :: r

/-- One entry of `model_utility_co_*`, `larch/numba/model.py:804-811`, `larch/dataframes.pyx:2184-2191`. -/
def coSlot (params cols : List String) (alt : Nat) (t : NTerm) : Option CoTerm :=
  (dictLoc params t.param).bind fun p =>
    if t.data = "1" then some { alt := alt, scale := t.scale, param := p, data := none }
    else (dictLoc cols t.data).map fun d => { alt := alt, scale := t.scale, param := p, data := some d }

/-- `model_co_slots`, `larch/numba/model.py:776-819`; `none` when it raises.  (Simplified: a repeated alternative code raises also
when its function is empty.) -/
def coSlots (T : Table) (S : NSpec) : Option (List CoTerm) :=
  (allOf (fun e : Int × List NTerm => (getLoc T.alts e.1).bind fun a =>
    allOf (coSlot T.params (T.co.getD []) a) e.2) S.co).map List.flatten

/-- `data_ca_or_ce.columns`: the columns of `data_ca`, else of `data_ce`; `larch/dataframes.pyx:1888-1893`. -/
def caOrCe (T : Table) : Option (List String) :=
  match T.ca with
  | some c => some c
  | none => T.ce

/-- One entry of `model_utility_ca_*` or `model_q_ca_*`, `larch/numba/model.py:832-835, 858-861`,
`larch/dataframes.pyx:2130-2133, 2155-2158`; without data, `None.columns` raises. -/
def caSlot (T : Table) (t : NTerm) : Option CaTerm :=
  (getLoc T.params t.param).bind fun p =>
    (caOrCe T).bind fun cols => (getLoc cols t.data).map fun d => { scale := t.scale, param := p, data := d }

/-- `model_q_scale_param`, `larch/numba/model.py:854-857`, `larch/dataframes.pyx:2134-2137`: the outer `none` for `KeyError`, the
inner one for `-1`. -/
def scaleSlot (T : Table) (S : NSpec) : Option (Option Nat) :=
  match S.qScale with
  | none => some none
  | some n => (getLoc T.params n).map some

/-- The specification arrays of the numba engine, `_rebuild_fixed_arrays`, `larch/numba/model.py:1104-1125`; `none` when it
raises. -/
def numbaSlots (T : Table) (S : NSpec) : Option Terms :=
  (allOf (caSlot T) S.ca).bind fun ca => (coSlots T S).bind fun co => (allOf (caSlot T) S.q).bind fun q =>
    (scaleSlot T S).map fun s => { q := q, qScale := s, ca := ca, co := co }

/-- `_check_data_is_sufficient_for_model`, `larch/dataframes.pyx:2038-2061`: whether nothing is reported missing. -/
def sufficient (T : Table) (S : NSpec) : Bool :=
  (S.ca.isEmpty || ((caOrCe T).any fun cols => S.ca.all fun t => decide (t.data ∈ cols))) &&
  (S.q.isEmpty || ((caOrCe T).any fun cols => S.q.all fun t => decide (t.data ∈ cols))) &&
  (S.co.isEmpty || (T.co.any fun cols => S.co.all fun e => e.2.all fun t => decide (t.data ∈ cols) || decide (t.data = "1")))

/-- The specification arrays of the compiled engine, `_link_to_model_structure`, `larch/dataframes.pyx:2107-2201`; `none` when it
raises. -/
def compiledSlots (T : Table) (S : NSpec) : Option Terms := if sufficient T S then numbaSlots T S else none

/-- The names `_scan_all_ensure_names` puts in the parameter frame, apart from logsum parameters,
`larch/model/controller.pyx:291-355` (the renaming is `__p_rename`, 406-410). -/
def scanNames (rename : String → String) (S : NSpec) : List String :=
  (S.co.flatMap (fun e => e.2.map fun t => rename t.param)) ++ (S.ca.map fun t => rename t.param) ++
    (S.q.map fun t => rename t.param) ++
    (if S.q.isEmpty then [] else S.qScale.toList.map rename)

/-- The width of the `idca` array of the numba engine: `array_ca(force=True)`, `larch/numba/model.py:1052`,
`larch/dataframes.pyx:1949-1953`; the `idce` arrays passed with it are empty (`larch/numba/model.py:1062-1064`). -/
def numbaWidth (T : Table) : Nat := (T.ca.getD []).length

/-- The columns of the array the compiled kernel reads `idca` values from: `_array_ce` whenever there is `data_ce`
(`_array_ce_reversemap is not None`), else `_array_ca`; `larch/dataframes.pyx:2398-2411`. -/
def compiledCols (T : Table) : List String :=
  match T.ce with
  | some c => c
  | none => T.ca.getD []

end Larch.Slots
