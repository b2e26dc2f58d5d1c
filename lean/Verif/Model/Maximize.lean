import Mathlib.Algebra.Order.Ring.Rat
import Mathlib.Data.List.Basic

/-!
# `maximize_loglike` (`larch/model/optimization.py:50-401`)

The control flow around the optimizers, which are arbitrary.  Left out: dashboard, timing, doctest mode, `kwargs`.
-/

namespace Larch.Maximize

variable {V L : Type}

/-- A method name, in lower case. -/
inductive Meth where
  | bhhh
  | slsqp
  | scipy (name : String)
deriving DecidableEq

/-- Classes of exceptions that are treated differently. -/
inductive Exc where
  | stepFailure      -- `BHHHSimpleStepFailure`
  | notImplemented   -- `NotImplementedError`
  | other
deriving DecidableEq

/-- The model: parameter values and penalty settings (`none`: there is no such attribute, or it is `None`). -/
structure M (V : Type) where
  pvals : V
  intensity : Option ℚ
  sharpness : Option ℚ

/-- A bound. -/
inductive Bnd where
  | ninf | fin (q : ℚ) | pinf
deriving DecidableEq

def Bnd.isFin : Bnd → Bool
  | .fin _ => true
  | _ => false

/-- `np.isfinite(minimum.max())`: NaN for no entries. -/
def maxFinite (l : List Bnd) : Bool := l.any Bnd.isFin && l.all (· ≠ .pinf)

/-- `np.isfinite(maximum.min())`. -/
def minFinite (l : List Bnd) : Bool := l.any Bnd.isFin && l.all (· ≠ .ninf)

/-- What an optimizer reports. -/
structure Rep (V L : Type) where
  x : V
  ll : L
deriving DecidableEq

/-- Arguments and surroundings. -/
structure Cfg (V L : Type) where
  method : Option Meth := none
  method2 : Option Meth := none
  bhhhStart : ℕ := 0
  hasConstraints : Bool := false
  minimum : List Bnd := []
  maximum : List Bnd := []
  /-- what happens before any optimizer is called: data missing, wrong dashboard (`optimization.py:107-143`) -/
  setup : Option Exc := none
  /-- `fit_bhhh`, first from the start block (`true`), and `fit_bhhh` or `simple_fit_bhhh`: log likelihood or exception, and what
  becomes of the model -/
  fit : Bool → M V → Except Exc L × M V
  /-- `scipy.optimize.minimize`: the points at which it asks for function or gradient, in order, then its report or an exception -/
  minimize : Meth → V → List V × Except Exc (Rep V L)

/-- The method when none is given, `optimization.py:172-188`. -/
def Cfg.chosen (c : Cfg V L) : Meth :=
  match c.method with
  | some m => if c.bhhhStart ≠ 0 ∧ m = .bhhh then .slsqp else m
  | none =>
    if c.bhhhStart ≠ 0 then .slsqp
    else if c.hasConstraints || maxFinite c.minimum || minFinite c.maximum then .slsqp
    else .bhhh

/-- `method2`, `optimization.py:190-191`. -/
def Cfg.second (c : Cfg V L) : Option Meth :=
  match c.method2 with
  | some m => some m
  | none => if c.chosen = .bhhh then some .slsqp else none

/-- What is returned: the report, if there is one, and the methods named in `result.method`. -/
structure Res (V L : Type) where
  rep : Option (Rep V L)
  methods : List Meth
deriving DecidableEq

/-- The start block, `optimization.py:196-236`: a step failure is caught; afterwards, in any case, the intensity is set to zero. -/
def Cfg.start (c : Cfg V L) (m : M V) : Except Exc (Option (Rep V L)) × M V :=
  if c.bhhhStart = 0 then (.ok none, m)
  else
    let (r, m') := c.fit true m
    let m'' := { m' with intensity := some 0 }
    match r with
    | .ok ll => (.ok (some ⟨m'.pvals, ll⟩), m'')
    | .error .stepFailure => (.ok none, m'')
    | .error e => (.error e, m'')

/-- The BHHH block, `optimization.py:238-302`: report, methods used, and the method to go on with (`bhhh`: none). -/
def Cfg.main (c : Cfg V L) (m : M V) : Except Exc (Option (Rep V L) × List Meth × Meth) × M V :=
  let (r, m') := c.fit false m
  match r with
  | .ok ll => (.ok (some ⟨m'.pvals, ll⟩, [.bhhh], .bhhh), m')
  | .error .notImplemented =>
    match c.second with
    | some m2 => (.ok (none, [m2], m2), m')
    | none => (.ok (none, [.bhhh], .bhhh), m')
  | .error .stepFailure =>
    match c.second with
    | some m2 => (.ok (none, [.bhhh, m2], m2), m')
    | none => (.ok (none, [.bhhh], .bhhh), m')
  | .error .other => (.error .other, m')

/-- The scipy block, `optimization.py:304-345`: every evaluation stores its point in the model, and nothing else does. -/
def Cfg.scipy (c : Cfg V L) (meth : Meth) (methods : List Meth) (m : M V) : Except Exc (Res V L) × M V :=
  let (pts, r) := c.minimize meth m.pvals
  let m' := { m with pvals := pts.getLastD m.pvals }
  match r with
  | .ok rep => (.ok ⟨some rep, methods⟩, m')
  | .error e => (.error e, m')

/-- The body of the `try`. -/
def Cfg.body (c : Cfg V L) (m : M V) : Except Exc (Res V L) × M V :=
  match c.setup with
  | some e => (.error e, m)
  | none =>
    match c.start m with
    | (.error e, m) => (.error e, m)
    | (.ok rep0, m) =>
      let used := if c.bhhhStart = 0 then [c.chosen] else [.bhhh, c.chosen]
      if c.chosen = .bhhh then
        match c.main m with
        | (.error e, m) => (.error e, m)
        | (.ok (rep, methods, meth), m) =>
          if meth = .bhhh then (.ok ⟨rep.or rep0, methods⟩, m) else c.scipy meth methods m
      else c.scipy c.chosen used m

/-- `maximize_loglike`: the settings read first are put back, unless they are `None`, on every way out (`optimization.py:104-105,
398-401`). -/
def Cfg.maximize (c : Cfg V L) (m : M V) : Except Exc (Res V L) × M V :=
  let (r, m') := c.body m
  (r, { m' with
    intensity := match m.intensity with | some i => some i | none => m'.intensity
    sharpness := match m.sharpness with | some s => some s | none => m'.sharpness })

end Larch.Maximize
