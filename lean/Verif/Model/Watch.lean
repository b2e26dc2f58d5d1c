import Mathlib.Data.List.Basic

/-!
# Objects that tell a model that they changed

* `TouchNotify` (`larch/util/touch_notifier.py`) over a dictionary, as in `DictOfStrings` (`larch/roles.py:2106-2147`).
* `LinearFunction_C` and `DictOfLinearFunction_C` (`larch/model/linear.pyx:771-949, 1333-1440`) as attributes of models, with the
  object identities that decide which model is told about a change.
-/

namespace Larch.Watch

/-! ## TouchNotify -/

/-- A `DictOfStrings`: the dictionary, other attributes, and how often the callback was called. -/
structure Dict where
  data : List (String × String)
  attrs : List (String × String)
  touches : Nat

/-- Statements on it. -/
inductive DictOp where
  | setitem (k v : String)
  | setattr (k v : String)
  | delitem (k : String)
  | delattr (k : String)
  | setdefault (k v : String)
  | update (kvs : List (String × String))
  | pop (k : String)
  | popDefault (k : String)
  | popitem
  | clear
deriving DecidableEq

/-- Dictionary assignment: replace in place, or append. -/
def put (d : List (String × String)) (k v : String) : List (String × String) :=
  if d.any (fun e => e.1 == k) then d.map (fun e => if e.1 = k then (k, v) else e) else d ++ [(k, v)]

def has (d : List (String × String)) (k : String) : Bool := d.any (fun e => e.1 == k)

def del (d : List (String × String)) (k : String) : List (String × String) := d.filter (fun e => e.1 != k)

/-- `self._touch()`. -/
def Dict.touch (s : Dict) : Dict := { s with touches := s.touches + 1 }

/-- The methods of `TouchNotify`, `touch_notifier.py:58-116`; `none` when the statement raises.  Inside the class body
`self.__touch()` means `self._TouchNotify__touch()`, an attribute that does not exist; the `AttributeError` is swallowed, so
`__setitem__` and `__setattr__` (lines 58-72) call nothing. -/
def Dict.step (s : Dict) : DictOp → Option Dict
  | .setitem k v => some { s with data := put s.data k v }
  | .setattr k v => some { s with attrs := put s.attrs k v }
  | .delitem k => if has s.data k then some (Dict.touch { s with data := del s.data k }) else none
  | .delattr k => if has s.attrs k then some (Dict.touch { s with attrs := del s.attrs k }) else none
  | .setdefault k v => some (Dict.touch { s with data := if has s.data k then s.data else put s.data k v })
  | .update kvs => some (Dict.touch { s with data := kvs.foldl (fun d e => put d e.1 e.2) s.data })
  | .pop k => if has s.data k then some (Dict.touch { s with data := del s.data k }) else none
  | .popDefault k => some (Dict.touch { s with data := del s.data k })
  | .popitem => if s.data.isEmpty then none else some (Dict.touch { s with data := s.data.dropLast })
  | .clear => some (Dict.touch { s with data := [] })

/-! ## Linear functions owned by models -/

variable {τ : Type}

/-- A `LinearFunction_C`: its terms and the model it reports to (`_instance`). -/
structure Fn (τ : Type) where
  terms : List τ
  inst : Option Nat

/-- What an evaluation uses: the terms of `utility_ca` and, per alternative, those of `utility_co`. -/
structure Snap (τ : Type) where
  ca : List τ
  co : Nat → List τ

/-- A model: the function objects behind `utility_ca` and `utility_co`, the mangled flag, and the arrays built at the last
evaluation. -/
structure Mdl (τ : Type) where
  ca : Nat
  co : Nat → Option Nat
  mangled : Bool
  snap : Snap τ

structure St (τ : Type) where
  fns : Nat → Fn τ
  next : Nat
  mdls : Nat → Mdl τ

def upd {α : Type} (f : Nat → α) (i : Nat) (x : α) : Nat → α := fun j => if j = i then x else f j

/-- The terms as they stand now (an alternative without entry has none). -/
def St.current (s : St τ) (m : Nat) : Snap τ :=
  ⟨(s.fns (s.mdls m).ca).terms, fun k => match (s.mdls m).co k with | some i => (s.fns i).terms | none => []⟩

/-- `instance.mangle()`, `linear.pyx:758-762`, `parameter_frame.pyx:161`. -/
def St.mangle (s : St τ) (m : Nat) : St τ := { s with mdls := upd s.mdls m { s.mdls m with mangled := true } }

/-- `_try_mangle(self._instance)`. -/
def St.tryMangle (s : St τ) : Option Nat → St τ
  | some m => s.mangle m
  | none => s

/-- Give function `i` new terms. -/
def St.setTerms (s : St τ) (i : Nat) (ts : List τ) : St τ := { s with fns := upd s.fns i { s.fns i with terms := ts } }

/-- `set_instance`, `linear.pyx:786`. -/
def St.setInst (s : St τ) (i m : Nat) : St τ := { s with fns := upd s.fns i { s.fns i with inst := some m } }

/-- A new `LinearFunction_C`. -/
def St.alloc (s : St τ) (ts : List τ) (inst : Option Nat) : St τ × Nat :=
  ({ s with fns := upd s.fns s.next ⟨ts, inst⟩, next := s.next + 1 }, s.next)

/-- Python list position of an index, when it exists. -/
def pyIdx (n : Nat) (i : Int) : Option Nat :=
  let j := if i < 0 then i + n else i
  if 0 ≤ j ∧ j < n then some j.toNat else none

/-- `list.insert` position. -/
def pyIns (n : Nat) (i : Int) : Nat :=
  let j := if i < 0 then i + n else i
  if j < 0 then 0 else min j.toNat n

/-- In-place operations of a linear function. -/
inductive Edit (τ : Type) where
  | setitem (i : Int) (t : τ)
  | delitem (i : Int)
  | insert (i : Int) (t : τ)
  | append (t : τ)
  | extend (ts : List τ)
  | iaddFn (ts : List τ)
  | remove (gone : τ → Bool)

/-- The new terms; `none` when the operation raises.  `extend`/`+=` take the terms of another function or a list. -/
def Edit.terms : Edit τ → List τ → Option (List τ)
  | .setitem i t, l => (pyIdx l.length i).map (fun j => l.set j t)
  | .delitem i, l => (pyIdx l.length i).map (fun j => l.eraseIdx j)
  | .insert i t, l => some (l.insertIdx (pyIns l.length i) t)
  | .append t, l => some (l ++ [t])
  | .extend ts, l => some (l ++ ts)
  | .iaddFn ts, l => some (l ++ ts)
  | .remove gone, l => some (l.filter (fun t => !gone t))

/-- Whether the operation ends in `_try_mangle(self._instance)`: all of `linear.pyx:853-860, 906-921, 951-964` do,
`remove_data` and `remove_param` (861-903) do not. -/
def Edit.notifies : Edit τ → Bool
  | .remove _ => false
  | _ => true

/-- Where a statement gets the function object from. -/
inductive Path where
  /-- `m.utility_ca` -/
  | ca (m : Nat)
  /-- `m.utility_co[k]` -/
  | co (m k : Nat)
  /-- an object held otherwise: a variable, or from `m.utility_co.values()` / `.items()` -/
  | obj (i : Nat)
deriving DecidableEq

/-- Evaluate a path: `LinearFunction_C.__get__` (`linear.pyx:795-807`; the attribute is allocated from the start here),
`DictOfLinearFunction_C.__getitem__` (`linear.pyx:1398-1410`, no validator): sets the instance; a missing entry is created without
telling the model. -/
def St.resolve (s : St τ) : Path → St τ × Nat
  | .ca m => (s, (s.mdls m).ca)
  | .co m k =>
    match (s.mdls m).co k with
    | some i => (s.setInst i m, i)
    | none =>
      let (s1, i) := s.alloc [] (some m)
      ({ s1 with mdls := upd s1.mdls m { s1.mdls m with co := upd (s1.mdls m).co k (some i) } }, i)
  | .obj i => (s, i)

/-- The value assigned to `m.utility_co[k]`. -/
inductive Rhs (τ : Type) where
  /-- an expression, a list or a component: a new function object -/
  | fresh (ts : List τ)
  /-- an existing function object -/
  | path (p : Path)

/-- Statements. -/
inductive Stmt (τ : Type) where
  /-- `m.utility_ca = ...` -/
  | setCa (m : Nat) (ts : List τ)
  /-- `del m.utility_ca` -/
  | delCa (m : Nat)
  /-- `path.op(...)` -/
  | edit (p : Path) (e : Edit τ)
  /-- `m.utility_co[k] = ...` -/
  | setCo (m k : Nat) (r : Rhs τ)
  /-- `del m.utility_co[k]` -/
  | delCo (m k : Nat)
  /-- `m.utility_co = {k: ...}` -/
  | setCoAll (m : Nat) (kvs : List (Nat × List τ))
  /-- `f = <expression>` -/
  | new (ts : List τ)
  /-- any evaluation (`m.loglike()`, ...), which unmangles first -/
  | eval (m : Nat)

/-- The entries of a new mapping, each a fresh function without instance, `linear.pyx:1335-1341`. -/
def allocAll (s : St τ) (co : Nat → Option Nat) : List (Nat × List τ) → St τ × (Nat → Option Nat)
  | [] => (s, co)
  | (k, ts) :: r =>
    let (s1, i) := s.alloc ts none
    allocAll s1 (upd co k (some i)) r

/-- The model objects after a change of `utility_co`, then `mangle`. -/
def St.setCoMap (s : St τ) (m : Nat) (co : Nat → Option Nat) : St τ :=
  St.mangle { s with mdls := upd s.mdls m { s.mdls m with co := co } } m

/-- One statement. -/
def St.step (s : St τ) : Stmt τ → St τ
  -- `__set__`, linear.pyx:809-825: the same object, re-initialised; its `_instance` is told
  | .setCa m ts => (s.setTerms (s.mdls m).ca ts).tryMangle (s.fns (s.mdls m).ca).inst
  -- `__delete__`, linear.pyx:827-845: sets the instance, then tells it
  | .delCa m => ((s.setTerms (s.mdls m).ca []).setInst (s.mdls m).ca m).mangle m
  | .edit p e =>
    let (s1, i) := s.resolve p
    match e.terms (s1.fns i).terms with
    | none => s1
    | some ts => if e.notifies then (s1.setTerms i ts).tryMangle (s1.fns i).inst else s1.setTerms i ts
  -- `__setitem__`, linear.pyx:1412-1427
  | .setCo m k r =>
    let (s1, i) := match r with
      | .fresh ts => s.alloc ts none
      | .path p => s.resolve p
    (s1.setInst i m).setCoMap m (upd (s1.mdls m).co k (some i))
  -- `__delitem__`, linear.pyx:1429-1431; KeyError when missing
  | .delCo m k =>
    match (s.mdls m).co k with
    | some _ => s.setCoMap m (upd (s.mdls m).co k none)
    | none => s
  -- `DictOfLinearFunction_C.__set__`, linear.pyx:1369-1387
  | .setCoAll m kvs =>
    let (s1, co) := allocAll s (fun _ => none) kvs
    s1.setCoMap m co
  | .new ts => (s.alloc ts none).1
  -- `unmangle` rebuilds from the functions when mangled, controller.pyx:266-274, numba/model.py:1150-1158
  | .eval m =>
    if (s.mdls m).mangled then
      { s with mdls := upd s.mdls m { s.mdls m with mangled := false, snap := s.current m } }
    else s

def St.run (s : St τ) (l : List (Stmt τ)) : St τ := l.foldl St.step s

/-- What an evaluation of `m` uses. -/
def St.used (s : St τ) (m : Nat) : Snap τ := ((s.step (.eval m)).mdls m).snap

/-- New models: model `m`'s `utility_ca` is object `m` (numbered below `n`, the number of models); nothing else exists. -/
def St.init (n : Nat) : St τ :=
  { fns := fun i => ⟨[], some i⟩
    next := n
    mdls := fun m => ⟨m, fun _ => none, true, ⟨[], fun _ => []⟩⟩ }

end Larch.Watch
