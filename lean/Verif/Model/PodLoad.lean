import Mathlib.Data.List.Basic
import Mathlib.Data.Nat.Bitwise

/-!
# Reading data items and expressions from a list of pods (`larch/data_services/podlist.py`, 91-115, 210-233, 235-328, 397-458;
`larch/data_services/service.py`, 254-322)

What one pod gives for a name, under the selector of the call, is an array of the type `A`; what Python does with arrays (literals, operators,
functions like `log`, global names like `pi`) is a parameter.
-/

namespace Larch.Pods

/-- An expression of Python: literals, names, binary operators and calls of a function. -/
inductive Expr (L O : Type)
  | lit (l : L)
  | name (n : String)
  | op (o : O) (a b : Expr L O)
  | call (f : String) (a : Expr L O)

/-- The tokens of type `NAME` in an expression. -/
def Expr.names {L O : Type} : Expr L O → List String
  | .lit _ => []
  | .name n => [n]
  | .op _ a b => a.names ++ b.names
  | .call f a => f :: a.names

/-- What Python does with arrays: literals, operators, and the functions and names that `load_data_item` imports (`podlist.py`, 298-300). -/
structure Lang (L O A : Type) where
  lit : L → A
  op : O → A → A → Option A
  fn : String → Option (A → Option A)
  const : String → Option A

/-- `tokenize` and the parser of Python. -/
structure Syn (L O : Type) where
  tokens : String → List String
  parse : String → Option (Expr L O)
  /-- The names in an expression are among the tokens of its text. -/
  sound : ∀ s e, parse s = some e → ∀ n ∈ e.names, n ∈ tokens s

/-- A pod with its data: `durable_mask` (`pod.py`, 176-186) and the items. -/
structure Store (A : Type) where
  mask : Nat
  items : List (String × A)

/-- `name in dat` (`pod.py`, 124-125). -/
def Store.has {A : Type} (p : Store A) (n : String) : Bool := p.items.any (fun e => e.1 == n)

/-- `dat.get_data_item(name, selector)` for a name in the pod (`pod.py`, 51-87). -/
def Store.get {A : Type} (p : Store A) (n : String) : Option A := p.items.lookup n

section

variable {L O A : Type} (sx : Syn L O) (lg : Lang L O A)

/-- The loops `for dat in self._datalist: if name in dat` (`podlist.py`, 112-115, 212-214, 225-232, 267-281). -/
def resolve (ps : List (Store A)) (n : String) : Option (Store A) := ps.find? (fun p => p.has n)

/-- What a `NAME` token that is not called stands for (`podlist.py`, 266-287). -/
def evalName (ps : List (Store A)) (n : String) : Option A :=
  match resolve ps n with
  | some p => p.get n
  | none => lg.const n

/-- A `NAME` token that is called: an array from a pod cannot be called. -/
def evalFn (ps : List (Store A)) (f : String) : Option (A → Option A) :=
  match resolve ps f with
  | some _ => none
  | none => lg.fn f

/-- The expression with the names replaced by the data of the pods, executed (`podlist.py`, 265-302). -/
def evalIn (ps : List (Store A)) : Expr L O → Option A
  | .lit l => some (lg.lit l)
  | .name n => evalName lg ps n
  | .op o a b => (evalIn ps a).bind (fun x => (evalIn ps b).bind (fun y => lg.op o x y))
  | .call f a => (evalFn lg ps f).bind (fun g => (evalIn ps a).bind g)

/-- `Pods.load_data_item` (`podlist.py`, 235-328): none if it raises. -/
def loadItem (ps : List (Store A)) (s : String) : Option A :=
  match resolve ps s with
  | some p => p.get s
  | none => (sx.parse s).bind (evalIn lg ps)

/-- The loop of `get_data_mask` over the tokens (`podlist.py`, 215-233). -/
def tokenMask (ps : List (Store A)) : List String → Nat → Nat
  | [], m => m
  | t :: r, m =>
    match resolve ps t with
    | some p => tokenMask ps r (m &&& p.mask)
    | none => 0

/-- `Pods.get_data_mask` (`podlist.py`, 210-233). -/
def dataMask (ps : List (Store A)) (s : String) : Nat :=
  match resolve ps s with
  | some p => p.mask
  | none => tokenMask ps (sx.tokens s) 0xFFFFFFFF

/-- One turn of the loop of `load_data_items` (`podlist.py`, 442-456): a masked item is left as it is in the array. -/
def loadOne (ps : List (Store A)) (pattern : Nat) (mask : Option Nat) (old : A) (s : String) : Option A :=
  match mask with
  | none => loadItem sx lg ps s
  | some m => if m &&& pattern = 0 then loadItem sx lg ps s else some old

/-- The loop of `load_data_items` (`podlist.py`, 442-456) over the columns of the array.  None if a call raises (what the array holds then is not
modelled) or the array has not one column for each name. -/
def loadCols (ps : List (Store A)) (pattern : Nat) (mask : String → Option Nat) : List String → List A → Option (List A)
  | [], [] => some []
  | s :: r, a :: t => (loadOne sx lg ps pattern (mask s) a s).bind (fun x => (loadCols ps pattern mask r t).map (fun y => x :: y))
  | _, _ => none

/-- The masks used by `load_idco` and `load_idca` when `mask_names` is not given (`service.py`, 314-315 and 539-540). -/
def maskFor (ps : List (Store A)) (pattern : Nat) (s : String) : Option Nat :=
  if pattern = 0 then none else some (dataMask sx ps s)

/-- What a call to `load_idco` leaves: the array that was given, and the array that is returned. -/
structure Loaded (A : Type) where
  given : List A
  returned : List A

/-- `DataService.load_idco` (`service.py`, 254-322) with `arr` given, and likewise `load_idca`: the data are loaded into the array, and a cleaned
copy is returned (`numpy.nan_to_num`, lines 320-321). -/
def loadInto (strip : A → A) (ps : List (Store A)) (pattern : Nat) (names : List String) (arr : List A) : Option (Loaded A) :=
  (loadCols sx lg ps pattern (maskFor sx ps pattern) names arr).map (fun c => ⟨c, c.map strip⟩)

/-- The first argument of `get_data_items` and `load_data_items`. -/
inductive Names
  | one (s : String)
  | tuple (l : List String)
  | list (l : List String)

/-- Lines 352-354 and 427-429 of `podlist.py`: `names + arg` with the tuple `arg`; a list and a tuple cannot be added. -/
def Names.all (n : Names) (arg : List String) : Option (List String) :=
  match n with
  | .one s => some (s :: arg)
  | .tuple l => some (l ++ arg)
  | .list _ => none

/-- `Pods.get_data_items` (`podlist.py`, 330-373): into a new array of zeros, nothing masked. -/
def getItems (zero : A) (ps : List (Store A)) (n : Names) (arg : List String) : Option (List A) :=
  (n.all arg).bind (fun l => loadCols sx lg ps 0 (fun _ => none) l (l.map (fun _ => zero)))

end

end Larch.Pods
