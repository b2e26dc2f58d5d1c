import Mathlib.Data.List.Basic

/-!
# The vault of an HDF5 file (`larch/data_services/h5/h5vault.py`)

The children of the vault's group, each a variable-length array of pickled values.  Pickling is taken to give back what was put in.  The order of
children is that of their creation (PyTables sorts them when a file is opened again; no statement depends on it).  Opening files, and names PyTables refuses
(with `/`), are not modelled.  Regular expressions are those of letters, digits, underscores and dots only.
-/

namespace Larch.Vault

abbrev Name := List Char

/-- `name.replace('.','_')`. -/
def safe (k : Name) : Name := k.map (fun c => if c = '.' then '_' else c)

/-- The children of the group with their entries. -/
abbrev Node (V : Type) := List (Name × List V)

variable {V : Type}

/-- `name in vault`, `h5vault.py:76-82`. -/
def contains (v : Node V) (k : Name) : Bool := (v.lookup (safe k)).isSome

/-- `vault[name] = value`, `h5vault.py:84-92`: an entry is added to the array, which is created when missing. -/
def setItem (v : Node V) (k : Name) (x : V) : Node V :=
  if contains v k then v.map (fun e => if e.1 = safe k then (e.1, e.2 ++ [x]) else e) else v ++ [(safe k, [x])]

/-- `array[index]` of PyTables. -/
def entry (l : List V) (i : Int) : Except String V :=
  let j := if i < 0 then i + l.length else i
  if j < 0 then .error "IndexError"
  else
    match l[j.toNat]? with
    | some x => .ok x
    | none => .error "IndexError"

/-- `_get_item_or_older`, `h5vault.py:94-100`. -/
def older (v : Node V) (k : Name) (i : Int) : Except String V :=
  match v.lookup (safe k) with
  | none => .error "KeyError"
  | some l => entry l i

/-- `vault[name]`, `h5vault.py:102-103`. -/
def getItem (v : Node V) (k : Name) : Except String V := older v k (-1)

/-- `keys()` and iteration, `h5vault.py:105-106, 117-119`. -/
def keys (v : Node V) : List Name := v.map Prod.fst

/-- One character of a pattern: a dot is any but the end of line. -/
def matches1 (p c : Char) : Bool := if p = '.' then decide (c ≠ '\n') else decide (p = c)

def matchHere : Name → Name → Bool
  | [], _ => true
  | _ :: _, [] => false
  | p :: ps, c :: cs => matches1 p c && matchHere ps cs

/-- `re.search(regex, name)` for patterns of letters, digits, `_` and `.`. -/
def search (p : Name) : Name → Bool
  | [] => matchHere p []
  | c :: cs => matchHere p (c :: cs) || search p cs

/-- `wipe(regex)`, `h5vault.py:108-112`. -/
def wipe (v : Node V) (p : Name) : Node V := v.filter (fun e => !search p e.1)

/-- `del vault[key]`, `h5vault.py:114-115`. -/
def delItem (v : Node V) (k : Name) : Node V := wipe v k

/-- `len(vault)`, `h5vault.py:121-122`. -/
def len (v : Node V) : Nat := v.length

/-- `pop(key)` of `MutableMapping`. -/
def pop (v : Node V) (k : Name) : Except String V × Node V :=
  match getItem v k with
  | .error e => (.error e, v)
  | .ok x => (.ok x, delItem v k)

/-- `clear()` of `MutableMapping`: `popitem` until there is none; `none` when the rounds are over. -/
def clear : Nat → Node V → Option (Node V)
  | 0, v => if v = [] then some [] else none
  | n + 1, v =>
    match v with
    | [] => some []
    | e :: r => clear n (delItem (e :: r) e.1)

/-- What is done with a vault. -/
inductive Op (V : Type) where
  | set (k : Name) (x : V)
  | del (k : Name)

def step (v : Node V) : Op V → Node V
  | .set k x => setItem v k x
  | .del k => delItem v k

def run (ops : List (Op V)) : Node V := ops.foldl step []

end Larch.Vault
