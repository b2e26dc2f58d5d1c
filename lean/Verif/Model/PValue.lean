import Verif.Model.Linear
import Verif.Model.Params

/-!
# The value of a parameter expression

Model of `ParameterFrame.pvalue` and `get_value` (`larch/model/parameter_frame.pyx:233-303, 462-478`), of `value` and `valid` of
parameter references and parameter arithmetic (`larch/model/linear.pyx:171-229`, `larch/model/linear_math.py:140-269`).
Not modelled: the formatted form (`apply_formatting=True`), containers inside containers, and `ZeroDivisionError` for plain
Python floats in a dictionary (a model's values are `numpy.float64`, for which division by zero gives an infinity or NaN).
-/

namespace Larch.PVal

open Larch.Linear Larch.Params

/-- What `pvalue` raises. -/
inductive VErr where
  | key
  | attribute
  | notImplemented
  | type
  | notNumber
deriving DecidableEq

/-- `self._frame.loc[name, 'value']`, `parameter_frame.pyx:472`. -/
def frameGet (f : Frame) (n : String) : Except VErr X := ((rowOf f.rows n).map Row.value).elim (.error .key) .ok

/-- A source of values given to `value(*args)`: a model or a dictionary. -/
inductive Src where
  | model (f : Frame)
  | dict (d : List (String × X))

/-- `isinstance(m, dict) and s in m`, `m[s]`. -/
def dictGet (d : List (String × X)) (s : String) : Option X := d.lookup s

/-- `ParameterRef_C.value`, `linear.pyx:171-193`: a dictionary without the name has no `get_value` (`AttributeError`, not caught);
a model without it is passed over. -/
def refValue : List Src → String → Except VErr X
  | [], _ => .error .key
  | .dict d :: _, s => (dictGet d s).elim (.error .attribute) .ok
  | .model f :: rest, s => ((rowOf f.rows s).map Row.value).elim (refValue rest s) .ok

/-- `x += …`, `x -= …`, `x *= …`, `x /= …`. -/
noncomputable def opX : POp → X → X → X
  | .add, x, y => x + y
  | .sub, x, y => x - y
  | .mul, x, y => x * y
  | .div, x, y => x / y

/-- `value` of the classes of parameter arithmetic, `linear_math.py:191-260`; a linear component as operand is multiplied as it
stands, which gives no number. -/
noncomputable def opValue (srcs : List Src) : PM → Except VErr X
  | .ref s => refValue srcs s
  | .noop s => refValue srcs s
  | .num v => .ok (.fin v)
  | .lin _ => .error .notNumber
  | .bin o l r => (opValue srcs l).bind fun x => (opValue srcs r).map fun y => opX o x y

/-- What can be given to `pvalue` in one piece. -/
inductive Leaf where
  | name (s : String)
  | ref (s : String)
  | op (e : PM)
  | comp (c : Comp)
  | func (l : List Comp)
  | num (v : ℝ)

/-- The exception of `as_pmath()`. -/
def pmathErr : Exc → VErr
  | .notImplementedError => .notImplemented
  | .typeError => .type
  | .attributeError => .attribute
  | .zeroDivision => .notNumber

/-- `x.as_pmath().value(self)`. -/
noncomputable def viaPmath (srcs : List Src) : Except Exc PM → Except VErr X
  | .ok e => opValue srcs e
  | .error e => .error (pmathErr e)

/-- `LinearFunction_C.as_pmath().value(self)`: for an empty function `as_pmath` gives the integer 0, which has no `value`. -/
noncomputable def funcValue (srcs : List Src) (l : List Comp) : Except VErr X :=
  if l.isEmpty then .error .attribute else viaPmath srcs (funcPmath l)

/-- The value of everything but a name: `self` is used as it is, `parameter_frame.pyx:262-271, 287-291`. -/
noncomputable def exprValue (f : Frame) : Leaf → Except VErr X
  | .name s => frameGet f s
  | .ref s => refValue [.model f] s
  | .op e => opValue [.model f] e
  | .comp c => viaPmath [.model f] c.asPmath
  | .func l => funcValue [.model f] l
  | .num v => .ok (.fin v)

/-- Only a name is looked up in `self.pf`, which scans the model first (`unmangle`), `parameter_frame.pyx:292-296, 195-225`. -/
noncomputable def scanFor (m : Mentions) (f : Frame) : Leaf → Frame
  | .name _ => unmangle m false f
  | _ => f

/-- `except KeyError: if default_value is not None: return default_value`, `parameter_frame.pyx:297-302`. -/
def orDefault (d : Option X) : Except VErr X → Except VErr X
  | .error .key => d.elim (.error .key) .ok
  | r => r

/-- `pvalue` of one piece: the model's frame afterwards and the value. -/
noncomputable def leafValue (m : Mentions) (d : Option X) (f : Frame) (l : Leaf) : Frame × Except VErr X :=
  (scanFor m f l, orDefault d (exprValue (scanFor m f l) l))

/-- `hash(k)`: linear components and functions define `__eq__` only and cannot be keys. -/
def hashable : Leaf → Bool
  | .comp _ => false
  | .func _ => false
  | _ => true

/-- `for k, v in parameter_name.items(): result[k] = self.pvalue(v, …)`, `parameter_frame.pyx:277-281`. -/
noncomputable def dictValue (m : Mentions) (d : Option X) : Frame → List (String × Leaf) → Frame × Except VErr (List (String × X))
  | f, [] => (f, .ok [])
  | f, (k, l) :: rest =>
    match (leafValue m d f l).2 with
    | .error e => ((leafValue m d f l).1, .error e)
    | .ok x => ((dictValue m d (leafValue m d f l).1 rest).1, (dictValue m d (leafValue m d f l).1 rest).2.map ((k, x) :: ·))

/-- `for k in parameter_name: result[k] = self.pvalue(k, …)`, `parameter_frame.pyx:282-286`, as the sequence of assignments. -/
noncomputable def seqValue (m : Mentions) (d : Option X) : Frame → List Leaf → Frame × Except VErr (List (Leaf × X))
  | f, [] => (f, .ok [])
  | f, l :: rest =>
    match (leafValue m d f l).2 with
    | .error e => ((leafValue m d f l).1, .error e)
    | .ok x =>
      if hashable l then
        ((seqValue m d (leafValue m d f l).1 rest).1, (seqValue m d (leafValue m d f l).1 rest).2.map ((l, x) :: ·))
      else ((leafValue m d f l).1, .error .type)

/-- `get_value(name, default=d)`, `parameter_frame.pyx:462-478`: never scans. -/
noncomputable def getValue (d : Option X) (f : Frame) (l : Leaf) : Except VErr X := orDefault d (exprValue f l)

/-- `str(self) in m`, `linear.pyx:227-229`, with `Model.__contains__` (`model.py:713-714`): the model is scanned. -/
noncomputable def refValid (m : Mentions) (f : Frame) (s : String) : Frame × Bool :=
  (unmangle m false f, (unmangle m false f).names.contains s)

/-- `valid` of parameter arithmetic, `linear_math.py:148-149, 166-174`; operands that are neither references nor operations count
as valid. -/
noncomputable def opValid (m : Mentions) (f : Frame) : PM → Frame × Bool
  | .ref s => refValid m f s
  | .noop s => refValid m f s
  | .num _ => (f, true)
  | .lin _ => (f, true)
  | .bin _ l r => ((opValid m (opValid m f l).1 r).1, (opValid m f l).2 && (opValid m (opValid m f l).1 r).2)

end Larch.PVal
