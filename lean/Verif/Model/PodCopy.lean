import Mathlib.Data.List.Basic

/-!
# Making pods from pods (`larch/data_services/h5/h5pod/idco.py`, 66-119, 279-345, 351-433; `idca.py`, 104-142)

`fatten`, `reshape_to`, `flatten`, `copy_external_data` and `pluck_from_omx`, with `add_array` (`generic.py:502-609`) and `delete_array` (`generic.py:649-665`)
as far as they matter here.  An array is a shape and its values, the last index running fastest.  Values are of any type.  Names have no slash
and are not reserved.  Files are pods: a file that does not exist, or is opened to be written anew, is a pod without variables.  The test that two
file names differ (lines 357 and 401) is left out.  `re.match(pattern, name)` is a parameter.
-/

namespace Larch.PodCopy

/-- A stored array: shape, values, and the attributes TITLE, DICTIONARY and ORIGINAL_SOURCE. -/
structure Var (V : Type) where
  shape : List Nat
  data : List V
  title : Option String := none
  dict : Option String := none
  source : Option String := none
deriving DecidableEq

/-- A pod: the shape, when known, and the variables. -/
structure Pod (V : Type) where
  shape : Option (List Nat)
  vars : List (String × Var V)
deriving DecidableEq

inductive Exc where
  | incompatibleShape
  | nodeError
  | valueError
  | typeError
  | keyError
  | indexError
  | notImplemented
deriving DecidableEq

variable {V : Type}

/-- `arr.squeeze()`. -/
def squeeze (s : List Nat) : List Nat := s.filter (fun d => d != 1)

/-- The array in the shape of the pod, `generic.py:542-557`. -/
def fitTo (p : Pod V) (v : Var V) : Option (Var V) :=
  match p.shape with
  | none => some v
  | some s => if s = v.shape then some v else if s = squeeze v.shape then some { v with shape := s } else none

/-- The pod without a variable, `generic.py:649-665`. -/
def deleteArray (p : Pod V) (name : String) : Pod V := { p with vars := p.vars.filter (fun x => x.1 != name) }

/-- `create_carray`, `generic.py:561`: no dimension may be zero; then the attributes, `generic.py:602-609`. -/
def store (p : Pod V) (name : String) (v : Var V) : Pod V × Option Exc :=
  if 0 ∈ v.shape then (p, some .valueError)
  else if name ∈ p.vars.map Prod.fst then (p, some .nodeError)
  else (⟨some v.shape, p.vars ++ [(name, v)]⟩, none)

/-- `add_array`, `generic.py:502-609`. -/
def addArray (p : Pod V) (name : String) (v : Var V) (overwrite : Bool) : Pod V × Option Exc :=
  match fitTo p v with
  | none => (p, some .incompatibleShape)
  | some w => store (if overwrite then deleteArray p name else p) name w

/-- The filter of the names, `idco.py:371-380`, `416-425`; `idca.py:118-127`. -/
def keeps (hit : String → String → Bool) (skip keep : List String) (n : String) : Bool :=
  !(skip.any (fun s => hit s n)) && (keep.isEmpty || keep.any (fun k => hit k n))

/-- The loops `idco.py:370-392`, `415-437`; `idca.py:117-141`: each array that is kept is changed and added to the new pod. -/
def transfer (change : Var V → Option (Var V)) : List (String × Var V) → Pod V → Pod V × Option Exc
  | [], p => (p, none)
  | (n, v) :: r, p =>
    match change v with
    | none => (p, some .valueError)
    | some w =>
      match addArray p n w false with
      | (q, none) => transfer change r q
      | (q, some e) => (q, some e)

/-- The variables that are kept. -/
def chosen (hit : String → String → Bool) (skip keep : List String) (p : Pod V) : List (String × Var V) :=
  p.vars.filter (fun x => keeps hit skip keep x.1)

/-- `fat[..., :] = arr[..., None]`, `idco.py:382-383`. -/
def fat (d : Nat) (v : Var V) : Var V :=
  { shape := v.shape ++ [d], data := v.data.flatMap (fun x => List.replicate d x), title := v.title, dict := v.dict }

/-- `fatten`, `idco.py:351-393`. -/
def fatten (hit : String → String → Bool) (p : Pod V) (dim : Option Nat) (skip keep : List String) (into : Pod V) : Pod V × Option Exc :=
  match dim with
  | none => (into, some .typeError)
  | some d => transfer (fun v => some (fat d v)) (chosen hit skip keep p) into

/-- `arr.reshape(-1)`, `idca.py:129`. -/
def flat (v : Var V) : Var V := { shape := [v.data.length], data := v.data, title := v.title, dict := v.dict }

/-- `flatten`, `idca.py:104-142`. -/
def flatten (hit : String → String → Bool) (p : Pod V) (skip keep : List String) (into : Pod V) : Pod V × Option Exc :=
  transfer (fun v => some (flat v)) (chosen hit skip keep p) into

/-- The number of values in the dimensions that are given. -/
def given (s : List Int) : Nat := ((s.filter (fun d => decide (0 ≤ d))).map Int.toNat).prod

/-- The shape that `numpy.reshape` gives to `n` values: one dimension may be -1. -/
def resolve (n : Nat) (s : List Int) : Option (List Nat) :=
  if s.any (fun d => decide (d < -1)) then none
  else if s.count (-1) = 0 then (if given s = n then some (s.map Int.toNat) else none)
  else if s.count (-1) = 1 ∧ given s ≠ 0 ∧ given s ∣ n then some (s.map (fun d => if d = -1 then n / given s else d.toNat))
  else none

/-- `arr.reshape(shape)`, `idco.py:426`. -/
def reshape (s : List Int) (v : Var V) : Option (Var V) :=
  (resolve v.data.length s).map (fun t => { shape := t, data := v.data, title := v.title, dict := v.dict })

/-- `reshape_to`, `idco.py:395-438`. -/
def reshapeTo (hit : String → String → Bool) (p : Pod V) (s : List Int) (skip keep : List String) (into : Pod V) : Pod V × Option Exc :=
  transfer (reshape s) (chosen hit skip keep p) into

/-- The argument `names`: nothing, one name, a list or a dict (`idco.py:89-93`, `311-318`). -/
inductive Names where
  | all
  | one (n : String)
  | list (l : List String)
  | dict (l : List (String × String))

/-- The dict made of it. -/
def Names.toDict : Names → Option (List (String × String))
  | .all => none
  | .one n => some [(n, n)]
  | .list l => some (l.map (fun n => (n, n)))
  | .dict l => some l

/-- The name under which a column is copied (lines 100 and 107), if it is. -/
def copiedAs (names : Names) (p : Pod V) (col : String) : Option String :=
  match names.toDict with
  | none => if col ∈ p.vars.map Prod.fst then none else some col
  | some m => (m.lookup col).bind (fun new => if new ∈ p.vars.map Prod.fst then none else some new)

/-- Lines 102-106 and 109-113: what is stored. -/
def copyOf (source : String) (v : Var V) : Var V := { shape := v.shape, data := v.data, dict := v.dict, source := some source }

/-- The loop of lines 99-113. -/
def copyLoop (names : Names) (source : String) : List (String × Var V) → Pod V → Pod V × Option Exc
  | [], p => (p, none)
  | (col, v) :: r, p =>
    match copiedAs names p col with
    | none => copyLoop names source r p
    | some new =>
      match addArray p new (copyOf source v) false with
      | (q, none) => copyLoop names source r q
      | (q, some e) => (q, some e)

/-- `copy_external_data`, `idco.py:66-119`, from a pod of the file `file`. -/
def copyExternal (p other : Pod V) (names : Names) (source : Option String) (file : String) : Pod V × Option Exc :=
  copyLoop names (source.getD file) other.vars p

/-- A matrix file: tables by name, of one number of rows and columns, and the names of the lookups. -/
structure Matrices (V : Type) where
  rows : Nat
  cols : Nat
  data : List (String × List (List V))
  lookups : List String
  file : String

/-- An index array: the name of a variable, an array, or a number. -/
inductive Index where
  | name (n : String)
  | array (l : List Int)
  | number (i : Int)

/-- `self._groupnode._v_children[name][:]`. -/
def indexOf (idx : String → Option (List Int)) : Index → Except Exc (List Int)
  | .name n => match idx n with
    | some l => .ok l
    | none => .error .keyError
  | .array l => .ok l
  | .number _ => .error .notImplemented

/-- Lines 320-339: the arrays of row and column numbers. -/
def pairOf (idx : String → Option (List Int)) (r c : Index) : Except Exc (List Int × List Int) :=
  match r, c with
  | .number _, .number _ => .error .typeError
  | .number _, .name n => match idx n with
    | none => .error .keyError
    | some _ => .error .notImplemented
  | .number _, .array _ => .error .notImplemented
  | r, .number i => (indexOf idx r).map (fun l => (l, List.replicate l.length i))
  | r, c => (indexOf idx r).bind (fun l => (indexOf idx c).map (fun m => (l, m)))

/-- Numpy's index: negative numbers count from the end. -/
def wrap (n : Nat) (i : Int) : Option Nat :=
  if 0 ≤ i ∧ i < n then some i.toNat else if -(n : Int) ≤ i ∧ i < 0 then some (i + n).toNat else none

/-- `M[rowarr, colarr]` at one place. -/
def pluckOne (f : Matrices V) (M : List (List V)) (e : Int × Int) : Option V :=
  (wrap f.rows e.1).bind (fun r => (wrap f.cols e.2).bind (fun c => (M[r]?).bind (fun row => row[c]?)))

/-- `other_omx[matrix_page][rowarr, colarr]` (`omx.py:727-737`); the arrays have the same length. -/
def pluckTable (f : Matrices V) (page : String) (rc : List Int × List Int) : Except Exc (List V) :=
  match f.data.lookup page with
  | none => .error .keyError
  | some M =>
    if page ∈ f.lookups then .error .keyError
    else if rc.1.length ≠ rc.2.length then .error .indexError
    else match (rc.1.zip rc.2).mapM (pluckOne f M) with
      | none => .error .indexError
      | some l => .ok l

/-- The loop of lines 341-345. -/
def pluckLoop (f : Matrices V) (rc : List Int × List Int) (overwrite : Bool) : List (String × String) → Pod V → Pod V × Option Exc
  | [], p => (p, none)
  | (page, new) :: r, p =>
    match pluckTable f page rc with
    | .error e => (p, some e)
    | .ok l =>
      match addArray p new { shape := [l.length], data := l, source := some f.file } overwrite with
      | (q, none) => pluckLoop f rc overwrite r q
      | (q, some e) => (q, some e)

/-- `pluck_from_omx`, `idco.py:279-345`; `idx` gives the variables of the pod that can be used as index arrays. -/
def pluck (p : Pod V) (f : Matrices V) (idx : String → Option (List Int)) (r c : Index) (names : Names) (overwrite : Bool) : Pod V × Option Exc :=
  match pairOf idx r c with
  | .error e => (p, some e)
  | .ok rc => pluckLoop f rc overwrite (names.toDict.getD (f.data.map (fun x => (x.1, x.1)))) p

end Larch.PodCopy
