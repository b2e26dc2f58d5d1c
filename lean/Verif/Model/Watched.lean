/-!
# A dictionary that tells of reads and changes (`larch/util/signal_dict.py:1-46`)

`SignalDict`.  The dictionary is the list of its entries in order of insertion.  Callbacks do not touch the dictionary; `raises` says for which
notifications a callback raises.  The log has every call of a callback, in order.
-/

namespace Larch.Watched

variable {K V : Type} [DecidableEq K]

/-- A call of one of the three callbacks, lines 20, 24 and 28. -/
inductive Note (K V : Type) where
  | read (k : K)
  | wrote (k : K) (v : V)
  | deleted (k : K)

structure State (K V : Type) where
  entries : List (K × V)
  log : List (Note K V)

/-- What a call gives: a value, nothing (`None`), a `KeyError`, a `TypeError`, or what a callback raised. -/
inductive Result (V : Type) where
  | value (v : V)
  | nothing
  | keyError
  | typeError
  | callbackRaised
  deriving DecidableEq

inductive Call (K V : Type) where
  | getitem (k : K)
  | setitem (k : K) (v : V)
  | delitem (k : K)
  | get (k : K) (default : V)
  | setdefault (k : K) (default : V)
  | pop (k : K)
  | popOr (k : K) (default : V)
  | update (items : List (K × V))
  | copy

/-- `dict.__getitem__`: the value under a key. -/
def entry (d : List (K × V)) (k : K) : Option V := (d.find? (fun e => decide (e.1 = k))).map (·.2)

/-- `dict.__setitem__`: in place if the key is there, else at the end. -/
def write (d : List (K × V)) (k : K) (v : V) : List (K × V) :=
  if d.any (fun e => decide (e.1 = k)) then d.map (fun e => if e.1 = k then (k, v) else e) else d ++ [(k, v)]

/-- `dict.__delitem__`. -/
def erase (d : List (K × V)) (k : K) : List (K × V) := d.filter (fun e => !decide (e.1 = k))

/-- `dict.update`. -/
def writeAll (d : List (K × V)) (items : List (K × V)) : List (K × V) := items.foldl (fun d e => write d e.1 e.2) d

/-- The constructor, lines 13-17: the initial items are not notified. -/
def make (items : List (K × V)) : State K V := ⟨writeAll [] items, []⟩

/-- A callback is called: the log grows, and the call returns `r` if the callback does. -/
def tell (raises : Note K V → Bool) (d : List (K × V)) (log : List (Note K V)) (n : Note K V) (r : Result V) : Result V × State K V :=
  (if raises n then .callbackRaised else r, ⟨d, log ++ [n]⟩)

/-- One call, lines 18-44.  `copy` is `type(self)(self)`, which lacks two arguments. -/
def call (raises : Note K V → Bool) (s : State K V) : Call K V → Result V × State K V
  | .getitem k => match entry s.entries k with
    | some v => tell raises s.entries s.log (.read k) (.value v)
    | none => (.keyError, s)
  | .setitem k v => tell raises (write s.entries k v) s.log (.wrote k v) .nothing
  | .delitem k => match entry s.entries k with
    | some _ => tell raises (erase s.entries k) s.log (.deleted k) .nothing
    | none => (.keyError, s)
  | .get k v => (.value ((entry s.entries k).getD v), s)
  | .setdefault k v => match entry s.entries k with
    | some u => (.value u, s)
    | none => (.value v, ⟨write s.entries k v, s.log⟩)
  | .pop k => match entry s.entries k with
    | some u => (.value u, ⟨erase s.entries k, s.log⟩)
    | none => (.keyError, s)
  | .popOr k v => match entry s.entries k with
    | some u => (.value u, ⟨erase s.entries k, s.log⟩)
    | none => (.value v, s)
  | .update items => (.nothing, ⟨writeAll s.entries items, s.log⟩)
  | .copy => (.typeError, s)

/-- Calls one after the other. -/
def calls (raises : Note K V → Bool) (s : State K V) (cs : List (Call K V)) : State K V := cs.foldl (fun s c => (call raises s c).2) s

end Larch.Watched
