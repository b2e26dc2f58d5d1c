import Verif.Model.Ext
import Mathlib.Algebra.BigOperators.Group.Finset.Basic
import Mathlib.Data.Real.Basic

/-!
# Parametric constraints (`larch/model/constraints.py`)

`RatioBound`, `OrderingBound`, `FixedBound`: linking to a model's parameter frame, constraint function, Jacobian and the rendering
as `scipy.optimize.LinearConstraint`.  A parameter vector is a function from positions to reals (positions come from `get_loc`, so
they are in range).  Numbers are exact reals; bounds of the frame are `X`.  The text forms (`interpret_contraint`, the `p_less`
argument of `OrderingBound` with an operator in it) are not modelled here.
-/

namespace Larch.Con

/-- Exceptions raised by `link_model`. -/
inductive Err where
  | key | zeroDiv | value
deriving DecidableEq

/-- `model._frame.index.get_loc(p)` (the index has no repeats, `C20_names_unique`); `none` for the `KeyError`. -/
def loc (names : List String) (p : String) : Option Nat := names.findIdx? (fun n => n == p)

/-- `x >= 0` / `x <= 0` for an entry of the frame (NaN compares false). -/
def ge0 : X → Prop
  | .fin r => 0 ≤ r
  | .pinf => True
  | _ => False

def le0 : X → Prop
  | .fin r => r ≤ 0
  | .ninf => True
  | _ => False

noncomputable instance (a : X) : Decidable (ge0 a) := Classical.propDecidable _
noncomputable instance (a : X) : Decidable (le0 a) := Classical.propDecidable _

/-! ## RatioBound -/

/-- The constructor arguments of `RatioBound`, `constraints.py:40-55`. -/
structure Ratio where
  num : String
  den : String
  minR : Option ℝ
  maxR : Option ℝ

/-- The linked attributes. -/
structure RatioL where
  iNum : Nat
  iDen : Nat
  cminNum : ℝ
  cminDen : ℝ
  cmaxNum : ℝ
  cmaxDen : ℝ

/-- `constraints.py:68-82`: coefficients of the minimum side.  `1/self.min_ratio` raises `ZeroDivisionError` for zero. -/
noncomputable def minCoef (scale : ℝ) (bmin bmax : X) : Option ℝ → Except Err (ℝ × ℝ)
  | none => .ok (0, 0)
  | some r =>
    if r = 0 then .error .zeroDiv
    else
      let scaling := max r (1 / r) * scale
      if ge0 bmin then .ok (1 * scaling, -r * scaling)
      else if le0 bmax then .ok (-1 * scaling, r * scaling)
      else .error .value

/-- `constraints.py:83-97`: coefficients of the maximum side. -/
noncomputable def maxCoef (scale : ℝ) (bmin bmax : X) : Option ℝ → Except Err (ℝ × ℝ)
  | none => .ok (0, 0)
  | some r =>
    if r = 0 then .error .zeroDiv
    else
      let scaling := max r (1 / r) * scale
      if ge0 bmin then .ok (-1 * scaling, r * scaling)
      else if le0 bmax then .ok (1 * scaling, -r * scaling)
      else .error .value

/-- `RatioBound.link_model`, `constraints.py:61-97`, for a model with parameters `names`; `bmin`, `bmax` are the frame's bounds of
the denominator. -/
noncomputable def Ratio.link (c : Ratio) (names : List String) (bmin bmax : X) (scale : ℝ) : Except Err RatioL :=
  match loc names c.num, loc names c.den with
  | some i, some j =>
    match minCoef scale bmin bmax c.minR with
    | .error e => .error e
    | .ok mn =>
      match maxCoef scale bmin bmax c.maxR with
      | .error e => .error e
      | .ok mx => .ok ⟨i, j, mn.1, mn.2, mx.1, mx.2⟩
  | _, _ => .error .key

/-- `_min_fun`, `constraints.py:99-100`. -/
def RatioL.minFun (L : RatioL) (x : Nat → ℝ) : ℝ := x L.iNum * L.cminNum + x L.iDen * L.cminDen

/-- `_max_fun`, `constraints.py:102-103`. -/
def RatioL.maxFun (L : RatioL) (x : Nat → ℝ) : ℝ := x L.iNum * L.cmaxNum + x L.iDen * L.cmaxDen

/-- `fun`, `constraints.py:105-109`. -/
noncomputable def RatioL.fn (L : RatioL) (x : Nat → ℝ) : ℝ := min (L.minFun x) (L.maxFun x)

/-- `jac`, `constraints.py:111-119`: the two assignments in order. -/
noncomputable def RatioL.jac (L : RatioL) (x : Nat → ℝ) : Nat → ℝ :=
  if L.minFun x < L.maxFun x then Function.update (Function.update (fun _ => 0) L.iNum L.cminNum) L.iDen L.cminDen
  else Function.update (Function.update (fun _ => 0) L.iNum L.cmaxNum) L.iDen L.cmaxDen

/-- One row of a `LinearConstraint`: coefficients, lower and upper bound. -/
structure LinRow where
  a : Nat → ℝ
  lb : X
  ub : X

/-- `as_linear_constraints`, `constraints.py:130-136`. -/
noncomputable def RatioL.linear (L : RatioL) : List LinRow :=
  [⟨Function.update (Function.update (fun _ => 0) L.iNum L.cminNum) L.iDen L.cminDen, .fin 0, .pinf⟩,
   ⟨Function.update (Function.update (fun _ => 0) L.iNum L.cmaxNum) L.iDen L.cmaxDen, .fin 0, .pinf⟩]

/-! ## OrderingBound -/

/-- The constructor arguments of `OrderingBound`, `constraints.py:203-229`. -/
structure Ordering where
  less : String
  more : String

structure OrderingL where
  iLess : Nat
  iMore : Nat
  scale : ℝ

/-- `OrderingBound.link_model`, `constraints.py:235-240`. -/
def Ordering.link (c : Ordering) (names : List String) (scale : ℝ) : Except Err OrderingL :=
  match loc names c.less, loc names c.more with
  | some i, some j => .ok ⟨i, j, scale⟩
  | _, _ => .error .key

/-- `fun`, `constraints.py:242-243`. -/
def OrderingL.fn (L : OrderingL) (x : Nat → ℝ) : ℝ := (x L.iMore - x L.iLess) * L.scale

/-- `jac`, `constraints.py:245-249`. -/
def OrderingL.jac (L : OrderingL) (_ : Nat → ℝ) : Nat → ℝ :=
  Function.update (Function.update (fun _ => 0) L.iMore L.scale) L.iLess (-L.scale)

/-- `as_linear_constraints`, `constraints.py:257-261`. -/
def OrderingL.linear (L : OrderingL) : List LinRow :=
  [⟨Function.update (Function.update (fun _ => 0) L.iMore L.scale) L.iLess (-L.scale), .fin 0, .pinf⟩]

/-! ## FixedBound -/

/-- The constructor arguments of `FixedBound`, `constraints.py:315-323`; `None`, or a number, which may be infinite
(`_get_bounds_constraints`, `larch/model/model.py:867-878`). -/
structure Fixed where
  p : String
  mn : Option X
  mx : Option X

structure FixedL where
  i : Nat
  mn : Option X
  mx : Option X
  scale : ℝ

/-- `FixedBound.link_model`, `constraints.py:328-332`. -/
def Fixed.link (c : Fixed) (names : List String) (scale : ℝ) : Except Err FixedL :=
  match loc names c.p with
  | some i => .ok ⟨i, c.mn, c.mx, scale⟩
  | none => .error .key

/-- `_min_fun`, `constraints.py:334-338`. -/
noncomputable def FixedL.minFun (L : FixedL) (x : Nat → ℝ) : X :=
  match L.mn with
  | some m => (.fin (x L.i) - m) * .fin L.scale
  | none => .pinf

/-- `_max_fun`, `constraints.py:340-344`. -/
noncomputable def FixedL.maxFun (L : FixedL) (x : Nat → ℝ) : X :=
  match L.mx with
  | some m => (m - .fin (x L.i)) * .fin L.scale
  | none => .pinf

/-- Python's `min(a, b)`: `b` if `b < a` else `a`. -/
noncomputable def pyMin (a b : X) : X := if X.gt a b then b else a

/-- `fun`, `constraints.py:346-350`. -/
noncomputable def FixedL.fn (L : FixedL) (x : Nat → ℝ) : X := pyMin (L.minFun x) (L.maxFun x)

/-- `jac`, `constraints.py:352-358`. -/
noncomputable def FixedL.jac (L : FixedL) (x : Nat → ℝ) : Nat → ℝ :=
  if X.gt (L.maxFun x) (L.minFun x) then Function.update (fun _ => 0) L.i L.scale
  else Function.update (fun _ => 0) L.i (-L.scale)

/-- `as_linear_constraints`, `constraints.py:369-376`. -/
noncomputable def FixedL.linear (L : FixedL) : List LinRow :=
  [⟨Function.update (fun _ => 0) L.i 1, L.mn.getD .ninf, L.mx.getD .pinf⟩]

/-! ## is_binding -/

/-- `is_binding`, `constraints.py:12-13`, and `abstract_model.pyx:1193`, `model.py:907` for a finite value of `fun`. -/
def binding (tol value : ℝ) : Prop := |value| < tol

/-- The same for a value that may be infinite. -/
def bindingX (tol : ℝ) : X → Prop
  | .fin r => |r| < tol
  | _ => False

/-! ## Checking -/

/-- `constraint_violation(on_violation='return')`, `larch/numba/model.py:1243-1298`: whether a message is returned.  `rows` are
value, minimum and maximum of each parameter; `funs` the values of the constraint functions. -/
noncomputable def violation (rows : List (X × X × X)) (funs : List X) : Bool :=
  rows.any (fun r => X.gt r.1 r.2.2) || rows.any (fun r => X.gt r.2.1 r.1) || funs.any (fun f => X.gt (.fin 0) f)

end Larch.Con
