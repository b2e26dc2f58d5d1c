import Mathlib.Data.List.Basic

/-!
# The variables of an HDF5 pod: adding, replacing, deleting, renaming

`larch/data_services/h5/h5pod/generic.py`: `names` (362-363), `rename_vars` (365-383), `shape` (451-475), `add_expression` (477-500),
`add_array` (502-609), `add_blank` (611-649), `delete_array` (652-670), for pods whose `metashape` is their `shape` (all but the idce, idrc
and idcs types).  The contents of an array are opaque, with its shape beside it.  What PyTables does: a node cannot be created under, or renamed
to, a name that is taken (`NodeError`) or that is not a legal name (`ValueError`); a renamed node goes to the end of the listing.  The
file is open for writing.  Not modelled: attributes (titles, dictionaries, sources), and how arrays of odd types are stored: whether
PyTables can store the array at all is a flag of it.
-/

namespace Larch.PodVars

variable {V : Type}

/-- An array: its shape, its contents in order, and whether PyTables can store it. -/
structure Arr (V : Type) where
  shape : List Nat
  data : V
  storable : Bool := true
deriving DecidableEq

/-- A pod: its nodes in order of listing, and the attribute `SHAPE` of the group when it has been set. -/
structure Pod (V : Type) where
  nodes : List (String × Arr V)
  marked : Option (List Nat)
deriving DecidableEq

/-- The empty pod, of a file just created. -/
def empty : Pod V := { nodes := [], marked := none }

inductive Exc where
  | reserved
  | incompatibleShape
  | nodeError
  | badName
  | noKnownShape
  | cannotStore
  | other
deriving DecidableEq

/-- `_reserved_names_`, `larch/data_services/__init__.py:2`. -/
def reservedNames : List String := ["_VAULT_", "_BUNCHES_"]

/-- All names of nodes. -/
def nodeNames (p : Pod V) : List String := p.nodes.map Prod.fst

/-- `names()`, `generic.py:362-363`. -/
def names (p : Pod V) : List String := (nodeNames p).filter (fun n => n ∉ reservedNames)

/-- `shape`, `generic.py:451-468`: the pod afterwards (the shape found is noted in the file) and the shape, if known. -/
def look (p : Pod V) : Pod V × Option (List Nat) :=
  match p.marked with
  | some s => (p, some s)
  | none =>
    if names p = [] then (p, none)
    else
      match p.nodes.head? with
      | some (_, a) => ({ p with marked := some a.shape }, some a.shape)
      | none => (p, none)

/-- `arr.squeeze()`. -/
def squeeze (a : Arr V) : Arr V := { a with shape := a.shape.filter (fun d => d ≠ 1) }

/-- The array as checked against the known shape, `generic.py:542-557`; `none` for `IncompatibleShape`. -/
def fitted (known : Option (List Nat)) (a : Arr V) : Option (Arr V) :=
  match known with
  | none => some a
  | some s => if s = a.shape then some a else if s = (squeeze a).shape then some (squeeze a) else none

/-- `name.replace('/', '|')`, `generic.py:537-541`. -/
def fixName (n : String) : String := String.ofList (n.toList.map (fun c => if c = '/' then '|' else c))

/-- The node of that name is gone. -/
def dropNode (p : Pod V) (n : String) : Pod V := { p with nodes := p.nodes.filter (fun e => e.1 ≠ n) }

/-- `delete_array(name)`, `generic.py:652-670`. -/
def deleteArray (p : Pod V) (n : String) : Pod V × Option Exc :=
  if n ∈ reservedNames then (p, some .reserved) else (dropNode p n, none)

/-- `create_carray`, `generic.py:560-599`. -/
def create (valid : String → Bool) (p : Pod V) (n : String) (a : Arr V) : Pod V × Option Exc :=
  if valid n = false then (p, some .badName)
  else if n ∈ nodeNames p then (p, some .nodeError)
  else if a.storable = false then (p, some .cannotStore)
  else ({ p with nodes := p.nodes ++ [(n, a)] }, none)

/-- The pod `create_carray` is called on: with `overwrite`, the array of that name has been deleted, `generic.py:558-559`. -/
def cleared (p : Pod V) (n : String) (overwrite : Bool) : Pod V := if overwrite then dropNode p n else p

/-- `add_array(name, arr, overwrite=..)`, `generic.py:502-609`. -/
def addArray (valid : String → Bool) (p : Pod V) (n : String) (a : Arr V) (overwrite : Bool) : Pod V × Option Exc :=
  if n ∈ reservedNames then (p, some .reserved)
  else
    match fitted (look p).2 a with
    | none => ((look p).1, some .incompatibleShape)
    | some b => create valid (cleared (look p).1 (fixName n) overwrite) (fixName n) b

/-- `add_blank(name, shape)`, `generic.py:636-649`; `zeros` is the array of zeros of a shape. -/
def addBlank (valid : String → Bool) (zeros : List Nat → Arr V) (p : Pod V) (n : String) (shape : Option (List Nat)) (overwrite : Bool) :
    Pod V × Option Exc :=
  if n ∈ reservedNames then (p, some .reserved)
  else
    match (look p).2, shape with
    | none, none => ((look p).1, some .noKnownShape)
    | none, some s => addArray valid (look p).1 n (zeros s) overwrite
    | some k, none => addArray valid (look p).1 n (zeros k) overwrite
    | some k, some s =>
      if k ≠ s then ((look p).1, some .incompatibleShape) else addArray valid (look p).1 n (zeros s) overwrite

/-- The argument `overwrite` of `add_expression`. -/
inductive Mode where
  | raise
  | replace
  | ignore
deriving DecidableEq

/-- What `add_expression` does with the outcome of `add_array`, `generic.py:493-500`. -/
def settle (m : Mode) (r : Pod V × Option Exc) : Pod V × Option Exc :=
  if m = .ignore ∧ r.2 = some .nodeError then (r.1, none) else r

/-- `self[expression]`, `generic.py:834-853`: an array of numbers with one more dimension, of size one, than the pod. -/
def evaluated (s : List Nat) (d : V) : Arr V := { shape := s ++ [1], data := d, storable := true }

/-- `add_expression(name, expression, overwrite=..)`, `generic.py:477-500`, without `dtype`; `ev` gives the values of the expression from the variables of
the pod, or the exception it raises. -/
def addExpression (valid : String → Bool) (ev : List (String × Arr V) → Except Exc V) (p : Pod V) (n : String) (m : Mode) :
    Pod V × Option Exc :=
  match (look p).2 with
  | none => ((look p).1, some .noKnownShape)
  | some s =>
    match ev p.nodes with
    | .error e => ((look p).1, some e)
    | .ok d => settle m (addArray valid (look p).1 n (evaluated s d) (decide (m = .replace)))

/-- `_f_rename(new)` on the node `old`: it goes last. -/
def renameNode (valid : String → Bool) (p : Pod V) (old new : String) : Pod V × Option Exc :=
  match p.nodes.lookup old with
  | none => (p, some .other)
  | some a =>
    if new ∈ nodeNames p then (p, some .nodeError)
    else if valid new = false then (p, some .badName)
    else ({ p with nodes := p.nodes.filter (fun e => e.1 ≠ old) ++ [(new, a)] }, none)

/-- The loop over one pattern, `generic.py:381-383`; `f` is `re.sub(pattern, replacement, ·)`. -/
def renameAll (valid : String → Bool) (f : String → String) : List String → Pod V → Pod V × Option Exc
  | [], p => (p, none)
  | n :: r, p =>
    if f n = n then renameAll valid f r p
    else
      match (renameNode valid p n (f n)).2 with
      | some e => ((renameNode valid p n (f n)).1, some e)
      | none => renameAll valid f r (renameNode valid p n (f n)).1

/-- `rename_vars(*rename_vars)`, `generic.py:365-383`. -/
def renameVars (valid : String → Bool) : List (String → String) → Pod V → Pod V × Option Exc
  | [], p => (p, none)
  | f :: r, p =>
    match (renameAll valid f (names p) p).2 with
    | some e => ((renameAll valid f (names p) p).1, some e)
    | none => renameVars valid r (renameAll valid f (names p) p).1

/-- One call on a pod. -/
inductive Call (V : Type) where
  | shape
  | add (n : String) (a : Arr V) (overwrite : Bool)
  | blank (n : String) (shape : Option (List Nat)) (overwrite : Bool)
  | expr (ev : List (String × Arr V) → Except Exc V) (n : String) (m : Mode)
  | delete (n : String)
  | rename (fs : List (String → String))

/-- A call and what it leaves behind. -/
def step (valid : String → Bool) (zeros : List Nat → Arr V) (p : Pod V) : Call V → Pod V × Option Exc
  | .shape => ((look p).1, none)
  | .add n a o => addArray valid p n a o
  | .blank n s o => addBlank valid zeros p n s o
  | .expr ev n m => addExpression valid ev p n m
  | .delete n => deleteArray p n
  | .rename fs => renameVars valid fs p

/-- The pod after a history of calls, whatever they raised. -/
def run (valid : String → Bool) (zeros : List Nat → Arr V) (p : Pod V) (cs : List (Call V)) : Pod V :=
  cs.foldl (fun q c => (step valid zeros q c).1) p

end Larch.PodVars
