import Verif.Model.Slots
import Mathlib.Data.List.Infix

/-!
# Linear functions as values and as attributes (`larch/model/linear.pyx`)

Equality and membership (76-83, 265-272, 611-622, 1062-1086, 1159-1166), and what assignments to `utility_ca` and `utility_co` make
of the model's functions, also when they raise (773-783, 808-825, 953-966, 1335-1347, 1373-1437).  Notification of the model is
not modelled here (see `Model/Watch`).
-/

namespace Larch.Terms

open Larch.Slots

/-- A text, a parameter reference, a data reference. -/
inductive Ref where
  | text (s : String)
  | par (s : String)
  | dat (s : String)
deriving DecidableEq

/-- `a == b`: `ParameterRef_C.__eq__` (`larch/model/linear.pyx:76-80`), `DataRef_C.__eq__` (265-269).  Both classes are subclasses
of `str`, so that Python asks them first also when the text is on the left. -/
def refEq : Ref → Ref → Bool
  | .text a, .text b => a == b
  | .par a, .text b => a == b
  | .par a, .par b => a == b
  | .par _, .dat _ => false
  | .dat a, .text b => a == b
  | .dat a, .dat b => a == b
  | .dat _, .par _ => false
  | .text a, .par b => b == a
  | .text a, .dat b => b == a

/-- A component, a function, or something else. -/
inductive Obj where
  | comp (c : NTerm)
  | func (l : List NTerm)
  | other

/-- `LinearComponent_C.__eq__` for a component, `larch/model/linear.pyx:616-622` (the scale is real here: no nan). -/
noncomputable def compEq (c d : NTerm) : Bool :=
  if refEq (.par c.param) (.par d.param) = false then false
  else if refEq (.dat c.data) (.dat d.data) = false then false
  else decide (c.scale = d.scale)

/-- The loop of `LinearFunction_C.__eq__`, `larch/model/linear.pyx:1164-1166`. -/
noncomputable def allEq : List NTerm → List NTerm → Bool
  | c :: l, d :: m => if compEq c d = false then false else allEq l m
  | _, _ => true

/-- `a == b` where `a` is a component or a function, `larch/model/linear.pyx:611-622, 1159-1166`: only the method of `a` is
asked, as it never returns `NotImplemented`. -/
noncomputable def objEq : Obj → Obj → Bool
  | .comp c, .comp d => compEq c d
  | .comp c, .func [d] => compEq c d
  | .comp _, .func _ => false
  | .comp _, .other => false
  | .func l, .func m => if l.length = m.length then allEq l m else false
  | .func _, .comp _ => false
  | .func _, .other => false
  | .other, _ => false

/-- The place of the first component found by `_index_of`, `larch/model/linear.pyx:1075-1086`; the outer `none` is `TypeError`, the
inner one `KeyError`. -/
def indexOf (l : List NTerm) : Ref → Option (Option Nat)
  | .par s => some (l.findIdx? (fun i => refEq (.par i.param) (.par s)))
  | .dat s => some (l.findIdx? (fun i => refEq (.dat i.data) (.dat s)))
  | .text _ => none

/-- `ref in f`, `larch/model/linear.pyx:1062-1073`; `none` is `TypeError`. -/
def contains (l : List NTerm) : Ref → Option Bool
  | .par s => some (l.any (fun i => refEq (.par i.param) (.par s)))
  | .dat s => some (l.any (fun i => refEq (.dat i.data) (.dat s)))
  | .text _ => none

/-- What may be on the right of an assignment. -/
inductive Val where
  /-- the integer 0 -/
  | zero
  /-- something that cannot be iterated over, such as another number -/
  | num
  /-- a parameter reference, such as `P.a` -/
  | par (s : String)
  | comp (c : NTerm)
  /-- a function of its own (not one of the model being edited) -/
  | func (l : List NTerm)
  /-- a list; `none` for a member which is not a component -/
  | list (l : List (Option NTerm))

/-- The loop of `LinearFunction_C.__init__`, `larch/model/linear.pyx:779-783`: the function afterwards, and whether it raised. -/
def fill : List (Option NTerm) → List NTerm → List NTerm × Bool
  | [], f => (f, false)
  | some c :: r, f => fill r (f ++ [c])
  | none :: _, f => (f, true)

/-- `LinearFunction_C.__init__` on a function that was `old`, `larch/model/linear.pyx:773-783`.  A parameter reference is a `str`,
and is iterated over by characters. -/
def initFn (old : List NTerm) : Val → List NTerm × Bool
  | .zero => ([], false)
  | .num => (old, true)
  | .par s => if s = "" then ([], false) else ([], true)
  | .comp c => ([c], false)
  | .func l => (l, false)
  | .list l => fill l []

/-- What may be assigned to `m.utility_co`. -/
inductive Map where
  /-- `None` -/
  | nothing
  /-- not a mapping -/
  | other
  /-- the mapping `m.utility_co` itself -/
  | self
  /-- another mapping, in its order -/
  | dict (d : List (Int × Val))

/-- `utility_ca` and `utility_co` of a model. -/
structure St where
  ca : List NTerm
  co : List (Int × List NTerm)

/-- `d[k] = v` of a Python dictionary: a new key comes last. -/
def put {α : Type} (d : List (Int × α)) (k : Int) (v : α) : List (Int × α) :=
  if k ∈ d.map Prod.fst then d.map (fun e => if e.1 = k then (k, v) else e) else d ++ [(k, v)]

/-- The loop of `DictOfLinearFunction_C.__init__`, `larch/model/linear.pyx:1339-1340`: the map afterwards, and whether it raised. -/
def fillMap : List (Int × Val) → List (Int × List NTerm) → List (Int × List NTerm) × Bool
  | [], d => (d, false)
  | (k, v) :: r, d => if (initFn [] v).2 then (d, true) else fillMap r (put d k (initFn [] v).1)

/-- `DictOfLinearFunction_C.__init__` on the mapping of the model, `larch/model/linear.pyx:1335-1347`: the map is emptied first. -/
def initMap : Map → List (Int × List NTerm) × Bool
  | .nothing => ([], false)
  | .other => ([], true)
  | .self => ([], false)
  | .dict d => fillMap d []

/-- Whether the text of the function has "with error" in it, `larch/model/linear.pyx:1425`: the rest of the text of a function
cannot complete these words, so one of the names has them. -/
def saysError (l : List NTerm) : Bool :=
  l.any (fun c => decide ("with error".toList <:+: c.param.toList) || decide ("with error".toList <:+: c.data.toList))

/-- The function `m.utility_co[k] = v` makes of `v`, `larch/model/linear.pyx:1415-1426`; `none` when it raises. -/
def asFn : Val → Option (List NTerm)
  | .zero => some []
  | .num => none
  | .par s => if saysError [⟨s, "1", 1⟩] then none else some [⟨s, "1", 1⟩]
  | .comp c => if saysError [c] then none else some [c]
  | .func l => if saysError l then none else some l
  | .list l => if (fill l []).2 then none else if saysError (fill l []).1 then none else some (fill l []).1

/-- `m.utility_co[k]`, `larch/model/linear.pyx:1402-1413` (models set no validator): the mapping afterwards, and the function. -/
def getItem (d : List (Int × List NTerm)) (k : Int) : List (Int × List NTerm) × List NTerm :=
  if k ∈ d.map Prod.fst then (d, (d.lookup k).getD []) else (d ++ [(k, [])], [])

/-- `f += v`, `larch/model/linear.pyx:953-966`, for a function that is not `v` itself; `none` when it raises. -/
def iadd (f : List NTerm) : Val → Option (List NTerm)
  | .par s => some (f ++ [⟨s, "1", 1⟩])
  | .zero => some f
  | .func l => some (f ++ l)
  | .comp c => some (f ++ [c])
  | .num => none
  | .list _ => none

/-- `list.extend(g)` where `g` is the function itself, read by places while it grows, `larch/model/linear.pyx:959`; `none` when the
rounds are over and it is not done. -/
def extendSelf : Nat → List NTerm → Nat → Option (List NTerm)
  | 0, _, _ => none
  | n + 1, l, i => if h : i < l.length then extendSelf n (l ++ [l[i]]) (i + 1) else some l

/-- Statements. -/
inductive Stmt where
  /-- `m.utility_ca = v` -/
  | setCa (v : Val)
  /-- `m.utility_ca += v` -/
  | addCa (v : Val)
  /-- `m.utility_co = v` -/
  | setAll (v : Map)
  /-- `m.utility_co[k] = v` -/
  | setCo (k : Int) (v : Val)
  /-- `m.utility_co[k] += v` -/
  | addCo (k : Int) (v : Val)
  /-- `del m.utility_co[k]` -/
  | delCo (k : Int)
  /-- `m.utility_co[k]` -/
  | readCo (k : Int)

/-- One statement: the functions afterwards, and whether it raised.  `m.utility_ca += v` then assigns the function to the attribute,
which takes a copy of it (`larch/model/linear.pyx:775-776, 808-818`). -/
def step (s : St) : Stmt → St × Bool
  | .setCa v => ({ s with ca := (initFn s.ca v).1 }, (initFn s.ca v).2)
  | .addCa v =>
    match iadd s.ca v with
    | some f => ({ s with ca := f }, false)
    | none => (s, true)
  | .setAll v => ({ s with co := (initMap v).1 }, (initMap v).2)
  | .setCo k v =>
    match asFn v with
    | some f => ({ s with co := put s.co k f }, false)
    | none => (s, true)
  | .addCo k v =>
    match iadd (getItem s.co k).2 v with
    | some f => ({ s with co := put (getItem s.co k).1 k f }, saysError f)
    | none => ({ s with co := (getItem s.co k).1 }, true)
  | .delCo k =>
    if k ∈ s.co.map Prod.fst then ({ s with co := s.co.filter (fun e => e.1 ≠ k) }, false) else (s, true)
  | .readCo k => ({ s with co := (getItem s.co k).1 }, false)

end Larch.Terms
