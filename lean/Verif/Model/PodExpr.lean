import Mathlib.Data.List.Basic
import Mathlib.Data.List.Nodup

/-!
# Data of HDF5 pods by expressions (`larch/data_services/h5/h5pod/generic.py:697-873`, `larch/data_services/h5/h5podgroup.py:43-153`, `larch/util/aster.py`)

The replacement of names by stored arrays is done token by token, as in `Verif/Model/Columnize.lean` (C169); here expressions are parsed, and their names are
variables.  One-dimensional pods (a value for each case).  Numbers are of any type, truth is one and zero.  Comparisons with several operators, and `and`, `or`, `not`
(which do not work for arrays) are left out; functions given under a name are functions of numbers (`un`, `bin`) or of the whole array (`whole`, as `normalize`).
-/

namespace Larch.PodExpr

variable {K : Type} [DecidableEq K] [Zero K] [One K]

/-- An expression as written. -/
inductive Expr (K : Type) where
  | var (n : String)
  | lit (x : K)
  | un (f : K → K) (e : Expr K)
  | bin (f : K → K → K) (a b : Expr K)
  /-- A comparison with one operator that is not `in`. -/
  | cmp (f : K → K → K) (a b : Expr K)
  /-- `a in [...]`, `a not in [...]` with a list of numbers. -/
  | isIn (neg : Bool) (a : Expr K) (members : List K)
  | whole (f : List K → List K) (e : Expr K)

/-- What is evaluated: an `in` of the expression has become a call of `inXd`, or not. -/
inductive Code (K : Type) where
  | var (n : String)
  | lit (x : K)
  | un (f : K → K) (e : Code K)
  | bin (f : K → K → K) (a b : Code K)
  | pyIn (neg : Bool) (a : Code K) (members : List K)
  | inXd (neg : Bool) (a : Code K) (members : List K)
  | whole (f : List K → List K) (e : Code K)

/-- The tree as parsed. -/
def raw : Expr K → Code K
  | .var n => .var n
  | .lit x => .lit x
  | .un f e => .un f (raw e)
  | .bin f a b => .bin f (raw a) (raw b)
  | .cmp f a b => .bin f (raw a) (raw b)
  | .isIn neg a s => .pyIn neg (raw a) s
  | .whole f e => .whole f (raw e)

/-- `AstWrapper().visit(tree)`, `aster.py:11-25`: `visit_Compare` does not visit what is inside of the comparison. -/
def asterize : Expr K → Code K
  | .var n => .var n
  | .lit x => .lit x
  | .un f e => .un f (asterize e)
  | .bin f a b => .bin f (asterize a) (asterize b)
  | .cmp f a b => .bin f (raw a) (raw b)
  | .isIn neg a s => .inXd neg (raw a) s
  | .whole f e => .whole f (asterize e)

inductive Fault where
  | name
  | value
  | attribute
  | syntax
  | type
deriving DecidableEq

inductive Val (K : Type) where
  | scalar (x : K)
  | array (l : List K)
deriving DecidableEq

/-- An operator on numbers and arrays.  (Arrays of length one are not broadcast: all arrays of an expression have the length of the selection.) -/
def spread (f : K → K → K) : Val K → Val K → Except Fault (Val K)
  | .scalar x, .scalar y => .ok (.scalar (f x y))
  | .scalar x, .array m => .ok (.array (m.map (fun y => f x y)))
  | .array l, .scalar y => .ok (.array (l.map (fun x => f x y)))
  | .array l, .array m => if l.length = m.length then .ok (.array (List.zipWith f l m)) else .error .value

/-- A function of numbers. -/
def each (f : K → K) : Val K → Val K
  | .scalar x => .scalar (f x)
  | .array l => .array (l.map f)

/-- A function of the whole. -/
def onAll (f : List K → List K) : Val K → Val K
  | .scalar x => .scalar ((f [x]).headD 0)
  | .array l => .array (f l)

/-- One or zero. -/
def truth (b : Bool) : K := if b then 1 else 0

/-- `x in s`, or `x not in s`, for a number. -/
def among (neg : Bool) (s : List K) (x : K) : K := truth (decide (x ∈ s) != neg)

/-- Python's `in`: `bool(a == x)` for the members `x` raises for an array that has not exactly one value; without members there is nothing to raise. -/
def pythonIn (neg : Bool) (s : List K) : Val K → Except Fault (Val K)
  | .scalar x => .ok (.scalar (among neg s x))
  | .array [x] => .ok (.scalar (among neg s x))
  | .array _ => if s = [] then .ok (.scalar (truth neg)) else .error .value

/-- `inXd`, `aster.py:7-8`: a number of Python has no attribute `shape`. -/
def numpyIn (neg : Bool) (s : List K) : Val K → Except Fault (Val K)
  | .scalar _ => .error .attribute
  | .array l => .ok (.array (l.map (among neg s)))

/-- `eval(j)`, `generic.py:761`. -/
def ev (env : String → Except Fault (List K)) : Code K → Except Fault (Val K)
  | .var n => (env n).map Val.array
  | .lit x => .ok (.scalar x)
  | .un f e => (ev env e).map (each f)
  | .bin f a b => (ev env a).bind (fun v => (ev env b).bind (fun w => spread f v w))
  | .pyIn neg a s => (ev env a).bind (pythonIn neg s)
  | .inXd neg a s => (ev env a).bind (numpyIn neg s)
  | .whole f e => (ev env e).map (onAll f)

/-- A pod: the number of cases, and the stored arrays by name. -/
structure Pod (K : Type) where
  cases : Nat
  vars : List (String × List K)

/-- `array[selector]`; a selector is the list of the positions it selects, or none. -/
def pick (sel : Option (List Nat)) (l : List K) : List K :=
  match sel with
  | none => l
  | some p => p.filterMap (fun i => l[i]?)

/-- A stored variable, `generic.py:729-741`. -/
def fetch (p : Pod K) (sel : Option (List Nat)) (n : String) : Except Fault (List K) :=
  match p.vars.lookup n with
  | none => .error .name
  | some l => .ok (pick sel l)

/-- `_evaluate_single_item(cmd, selector)`, `generic.py:751-786`. -/
def evaluate (p : Pod K) (sel : Option (List Nat)) (e : Expr K) : Except Fault (Val K) := ev (fetch p sel) (asterize e)

/-- `selector_len_for(selector, self.shape[0])`. -/
def selected (p : Pod K) (sel : Option (List Nat)) : Nat := (sel.map List.length).getD p.cases

/-- `result[:] = value`: numbers are broadcast. -/
def fill (m : Nat) : Val K → Except Fault (List K)
  | .scalar x => .ok (List.replicate m x)
  | .array [x] => .ok (List.replicate m x)
  | .array l => if l.length = m then .ok l else .error .value

/-- Whether the expression reads a stored array. -/
def hasVar : Expr K → Bool
  | .var _ => true
  | .lit _ => false
  | .un _ e => hasVar e
  | .bin _ a b => hasVar a || hasVar b
  | .cmp _ a b => hasVar a || hasVar b
  | .isIn _ a _ => hasVar a
  | .whole _ e => hasVar e

/-- `result[:] = _temp[selector]`, `generic.py:806-808`. -/
def reselect (p : Pod K) (sel : Option (List Nat)) : Val K → Except Fault (List K)
  | .scalar _ => .error .value
  | .array l => fill (selected p sel) (.array (pick sel l))

/-- `load_data_item(name, result, selector)`, `generic.py:798-811`: if the file library does not take the selector (`native` is false: `IndexError`, when a variable is
read), everything is read, and the selector applied to the value. -/
def loadItem (p : Pod K) (native : Bool) (sel : Option (List Nat)) (e : Expr K) : Except Fault (List K) :=
  if sel.isSome && !native && hasVar e then
    (evaluate p none e).bind (reselect p sel)
  else (evaluate p sel e).bind (fill (selected p sel))

/-- A part of the key in `pod[...]`. -/
inductive Part (K : Type) where
  | text (e : Expr K)
  | slice (positions : List Nat)
  | other

/-- One column of `__getitem__`, `generic.py:850-851`: what is no text is turned into one that does not parse, or has no number as value. -/
def column (p : Pod K) (sel : Option (List Nat)) : Part K → Except Fault (List K)
  | .text e => (evaluate p sel e).bind (fill (selected p sel))
  | .slice _ => .error .type
  | .other => .error .syntax

/-- `__getitem__`, `generic.py:834-853`: the last part is a selector only if it is a slice, and not alone. -/
def getItem (p : Pod K) (key : List (Part K)) : Except Fault (List (List K)) :=
  match key.getLast? with
  | some (.slice s) => if 2 ≤ key.length then key.dropLast.mapM (column p (some s)) else .error .type
  | _ => key.mapM (column p none)

/-- A name in a group of pods, `h5podgroup.py:73-83`: `self._pods{j}['name', selector].squeeze()` for the first pod that has it. -/
def groupFetch (pods : List (Pod K)) (isSlice : Bool) (sel : Option (List Nat)) (n : String) : Except Fault (List K) :=
  match pods.find? (fun p => decide (n ∈ p.vars.map Prod.fst)) with
  | none => .error .name
  | some p => if isSlice || sel.isNone then fetch p sel n else .error .syntax

/-- `load_into` of a group for one expression, `h5podgroup.py:153-196`; the shape is that of the first pod. -/
def groupLoad (pods : List (Pod K)) (isSlice : Bool) (sel : Option (List Nat)) (e : Expr K) : Except Fault (List K) :=
  match pods with
  | [] => .error .value
  | p :: _ => (ev (groupFetch pods isSlice sel) (asterize e)).bind (fill (selected p sel))

end Larch.PodExpr
