import Verif.Model.PodLoad
import Verif.Model.Vault

/-!
# Pods that stack casewise data into data by alternative (`larch/data_services/h5/h5pod/idcs.py`, 167-290)

A bunch names an expression for each of some alternatives.  Dictionaries and lists are objects of the caller, who can change them: a pod without
storage keeps the dictionary itself, one with storage a pickled copy in a vault (`Larch.Vault`).  What a name or an expression gives, under the
selector of the call, is `Larch.Pods.loadItem`.
-/

namespace Larch.StackPod

open Larch.Pods

/-- A key of a bunch or an alternative: Python does not take `'1'` for `1`. -/
inductive Alt
  | int (i : Int)
  | str (s : String)
deriving DecidableEq

abbrev Dict := List (Alt × String)

/-- `self._bunches` (`idcs.py`, 189-194): a dictionary of references, or a vault. -/
inductive Bunches
  | memory (m : List (String × Nat))
  | vault (v : Larch.Vault.Node Dict)

/-- The pod, and the objects of the caller: dictionaries and lists of alternatives, by reference.  `alts = none` is the list that a new pod starts
with (line 196). -/
structure World where
  dicts : Nat → Dict
  lists : Nat → List Alt
  alts : Option Nat
  bunches : Bunches

inductive Err
  | value
  | key
  | type
  | assertion
  | load
deriving DecidableEq

/-- What is given as the definition of a bunch. -/
inductive Def
  | dict (ref : Nat)
  | other

/-- What can happen to a pod and the objects given to it. -/
inductive Op
  | setAlts (ref : Nat)
  | setBunch (name : String) (d : Def)
  | editDict (ref : Nat) (d : Dict)
  | editList (ref : Nat) (l : List Alt)

def put {V : Type} (f : Nat → V) (r : Nat) (x : V) : Nat → V := fun i => if i = r then x else f i

/-- `self._bunches[bunch_name] = bunch_def` (`idcs.py`, 210), for a dictionary or for a vault. -/
def Bunches.set (dicts : Nat → Dict) : Bunches → String → Nat → Bunches
  | .memory m, n, r => .memory ((n, r) :: m)
  | .vault v, n, r => .vault (Larch.Vault.setItem v n.toList (dicts r))

/-- `set_bunch` and `set_alts` (`idcs.py`, 207-214); a definition that is no dictionary raises and changes nothing. -/
def step (w : World) : Op → World
  | .setAlts r => { w with alts := some r }
  | .setBunch n (.dict r) => { w with bunches := w.bunches.set w.dicts n r }
  | .setBunch _ .other => w
  | .editDict r d => { w with dicts := put w.dicts r d }
  | .editList r l => { w with lists := put w.lists r l }

def run (w : World) (ops : List Op) : World := ops.foldl step w

/-- `set_bunch` raises (`idcs.py`, 208-209). -/
def setBunchErr : Def → Option Err
  | .dict _ => none
  | .other => some .type

/-- The pod made by `H5PodCS(podgroup, storage)` (`idcs.py`, 179-202): with storage the bunches that are stored there. -/
def create (dicts : Nat → Dict) (lists : Nat → List Alt) (storage : Option (Larch.Vault.Node Dict)) : World :=
  match storage with
  | none => ⟨dicts, lists, none, .memory []⟩
  | some v => ⟨dicts, lists, none, .vault v⟩

/-- `self._altcodes` as it is now. -/
def World.altcodes (w : World) : List Alt :=
  match w.alts with
  | none => []
  | some r => w.lists r

/-- `self._bunches[bunchname]` (`idcs.py`, 219-221). -/
def World.lookup (w : World) (n : String) : Option Dict :=
  match w.bunches with
  | .memory m => (m.lookup n).map w.dicts
  | .vault v => (Larch.Vault.getItem v n.toList).toOption

/-- One turn of the loop of lines 223-227. -/
def command (d : Dict) (a : Alt) : String :=
  match d.lookup a with
  | none => "0"
  | some s => s

/-- What is asked for: the name of a bunch, or a list of expressions. -/
inductive Ask
  | name (n : String)
  | list (l : List String)

/-- `_get_list_from_bunchname` (`idcs.py`, 216-228). -/
def World.commands (w : World) : Ask → Except Err (List String)
  | .list l => .ok l
  | .name n =>
    match w.lookup n with
    | none => .error .key
    | some d => .ok (w.altcodes.map (command d))

/-- `[self._get_list_from_bunchname(i) for i in names]` (`idcs.py`, 253). -/
def World.allCommands (w : World) : List Ask → Except Err (List (List String))
  | [] => .ok []
  | a :: r =>
    match w.commands a with
    | .error e => .error e
    | .ok l =>
      match w.allCommands r with
      | .error e => .error e
      | .ok t => .ok (l :: t)

section

variable {L O A : Type} (sx : Syn L O) (lg : Lang L O A)

/-- The inner loops of lines 265-271 and 282-287: each expression is loaded into its column; the first that cannot be raises. -/
def fill (ps : List (Store A)) : List String → Except Err (List A)
  | [] => .ok []
  | s :: r =>
    match loadItem sx lg ps s with
    | none => .error .load
    | some a =>
      match fill ps r with
      | .error e => .error e
      | .ok t => .ok (a :: t)

/-- The outer loop of lines 265-271. -/
def fillAll (ps : List (Store A)) : List (List String) → Except Err (List (List A))
  | [] => .ok []
  | l :: r =>
    match fill sx lg ps l with
    | .error e => .error e
    | .ok c =>
      match fillAll ps r with
      | .error e => .error e
      | .ok t => .ok (c :: t)

/-- `len(cmd) == first_len` (`idcs.py`, 256-258). -/
def sameLength : List (List String) → Bool
  | [] => true
  | l :: r => r.all (fun c => c.length == l.length)

/-- `pod[names]` and `pod[names, slice]` (`idcs.py`, 238-272): `result[..., j, i]` is the `j`-th of the `i`-th list.  An empty list of names raises
(`names[0]`), which is `assertion` here. -/
def getItem (ps : List (Store A)) (w : World) (asked : List Ask) : Except Err (List (List A)) :=
  if w.altcodes = [] then .error .value
  else
    match w.allCommands asked with
    | .error e => .error e
    | .ok cs => if cs = [] ∨ sameLength cs = false then .error .assertion else fillAll sx lg ps cs

/-- `load_data_item` (`idcs.py`, 274-288) into an array of the right shape. -/
def loadDataItem (ps : List (Store A)) (w : World) (asked : Ask) : Except Err (List A) :=
  if w.altcodes = [] then .error .value
  else
    match w.commands asked with
    | .error e => .error e
    | .ok l => fill sx lg ps l

end

/-- `shape` (`idcs.py`, 293-298). -/
def World.shape (podshape : List Nat) (w : World) : List Nat := podshape ++ [w.altcodes.length]

/-- `name in pod` (`idcs.py`, 230-233). -/
def World.has (w : World) (n : String) : Bool :=
  match w.bunches with
  | .memory m => (m.lookup n).isSome
  | .vault v => Larch.Vault.contains v n.toList

end Larch.StackPod
