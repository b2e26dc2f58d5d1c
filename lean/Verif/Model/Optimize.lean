import Mathlib.Data.Rat.Defs
import Mathlib.Algebra.Order.Ring.Rat
import Mathlib.Algebra.Order.Group.Abs
import Mathlib.Algebra.Order.Ring.Abs

/-!
# BHHH estimation

The line searches of `larch/model/abstract_model.pyx:264-403` and `larch/numba/optimization.py:21-220`, for an arbitrary objective.
Parameter vectors `V` and directions `D` are any types, with `move p d s` for `p + d * s`.  Step lengths and tolerances are exact
rationals.  A log likelihood is an element of a linear order, or NaN.  What `loglike2_bhhh` returns at a point is summarised by the log
likelihood and what is computed from gradient and BHHH matrix: direction and tolerance (`abstract_model.pyx:360-362`,
`numba/optimization.py:5-19, 93-97`; a function of the point because held-fast marks do not change during estimation).
Left out: printing and logging.
-/

namespace Larch.Optim

variable {V D L : Type} [LinearOrder L]

/-- A float that is a number of a linear order (which may contain infinities), or NaN (`none`). -/
abbrev Num (L : Type) := Option L

/-- Python `a > b`: false if one is NaN. -/
def gt (a b : Num L) : Bool :=
  match a, b with
  | some a, some b => b < a
  | _, _ => false

/-- Python `a <= b`. -/
def le (a b : Num L) : Bool :=
  match a, b with
  | some a, some b => a ≤ b
  | _, _ => false

/-- Python `abs(t) <= c`. -/
def absLe (t : Num ℚ) (c : ℚ) : Bool :=
  match t with
  | some t => |t| ≤ c
  | none => false

/-- Python `abs(t) > c`. -/
def absGt (t : Num ℚ) (c : ℚ) : Bool :=
  match t with
  | some t => c < |t|
  | none => false

/-- Python `abs(t) < c`. -/
def absLt (t : Num ℚ) (c : ℚ) : Bool :=
  match t with
  | some t => |t| < c
  | none => false

/-- What an evaluation gives. -/
structure Eval (D L : Type) where
  ll : Num L
  dir : D
  tol : Num ℚ

/-- The end of a line search: the point at which the parameters stand, the evaluation there, the step length variable, and the number of
evaluations made. -/
structure Trial (V E : Type) where
  pos : V
  res : E
  steplen : ℚ
  evals : ℕ

/-- The inner loop `while True: set_values; evaluate; if better: break; steplen *= 0.5; if steplen < minimum: break`
(`abstract_model.pyx:285-290, 366-374`, `numba/optimization.py:126-137`).  `try_ s` is the point tried with step length `s`, `ev` the
evaluation, `better` the test.  `none`: not finished after `fuel` evaluations. -/
def search {E : Type} (try_ : ℚ → V) (ev : V → E) (better : E → Bool) (smin : ℚ) : ℕ → ℚ → Option (Trial V E)
  | 0, _ => none
  | fuel + 1, s =>
    if better (ev (try_ s)) then some ⟨try_ s, ev (try_ s), s, 1⟩
    else if s / 2 < smin then some ⟨try_ s, ev (try_ s), s / 2, 1⟩
    else (search try_ ev better smin fuel (s / 2)).map fun t => { t with evals := t.evals + 1 }

/-- How a method ends. -/
inductive Out (R : Type) where
  | returned (r : R)
  | raised
  | unfinished
deriving DecidableEq

/-- `simple_step_bhhh(steplen, ..)`, `abstract_model.pyx:264-296`: result and final parameter values.  `sub` evaluates the selected cases
(`leave_out`, `keep_only`, `subsample`), `full` is `self.loglike()`, which is called without them. -/
def simpleStep (move : V → D → ℚ → V) (sub : V → Eval D L) (full : V → Num L) (fuel : ℕ) (steplen : ℚ) (p : V) :
    Out (Num L × Num ℚ) × V :=
  let cur := sub p
  match search (fun s => move p cur.dir s) full (fun v => gt v cur.ll) (1 / 100) fuel steplen with
  | none => (.unfinished, p)
  | some t => if le t.res cur.ll then (.raised, p) else (.returned (t.res, cur.tol), t.pos)

/-- Result of a series of steps. -/
structure Fit (L : Type) where
  ll : Num L
  tol : Num ℚ
  iter : ℕ
  steps : List ℚ
deriving DecidableEq

/-- Everything observable about a series of steps: how it ended, the parameter values of the model at the end, the values passed to
`callback`, and the number of evaluations of the objective. -/
structure Run (V L : Type) where
  out : Out (Fit L)
  pvals : V
  callbacks : List V
  evals : ℕ

/-- `simple_fit_bhhh`, the loop (`abstract_model.pyx:364-391`); `n` is `maxiter - iter`. -/
def simpleLoop (move : V → D → ℚ → V) (ev : V → Eval D L) (fuel : ℕ) (ctol smin : ℚ) :
    (n iter : ℕ) → (p : V) → (cur : Eval D L) → (s : ℚ) → (steps : List ℚ) → Run V L
  | n, iter, p, cur, s, steps =>
    if absGt cur.tol ctol then
      match n with
      | 0 => ⟨.returned ⟨cur.ll, cur.tol, iter, steps⟩, p, [], 0⟩
      | n + 1 =>
        match search (fun s => move p cur.dir s) ev (fun r => gt r.ll cur.ll) smin fuel s with
        | none => ⟨.unfinished, p, [], fuel⟩
        | some t =>
          if le t.res.ll cur.ll then ⟨.raised, p, [], t.evals⟩
          else
            let r := simpleLoop move ev fuel ctol smin n (iter + 1) t.pos t.res t.steplen (steps ++ [t.steplen])
            { r with callbacks := t.pos :: r.callbacks, evals := t.evals + r.evals }
    else ⟨.returned ⟨cur.ll, cur.tol, iter, steps⟩, p, [], 0⟩

/-- `simple_fit_bhhh(steplen, ctol=, maxiter=, jumpstart=, minimum_steplen=)`, `abstract_model.pyx:323-397`.  `jump` is the effect of
`jumpstart_bhhh` on the parameters.  `current_pvals` is read before the jump, the evaluation is made after it. -/
def simpleFit (move : V → D → ℚ → V) (ev : V → Eval D L) (jump : V → V) (fuel : ℕ) (steplen ctol : ℚ) (maxiter jumpstart : ℕ)
    (smin : ℚ) (p : V) : Run V L :=
  let p' := if jumpstart = 0 then p else jump p
  let cur := ev p'
  if absGt cur.tol ctol ∧ jumpstart < maxiter then
    let r := simpleLoop move ev fuel ctol smin (maxiter - jumpstart) jumpstart p cur steplen []
    { r with evals := 1 + r.evals }
  else ⟨.returned ⟨cur.ll, cur.tol, jumpstart, []⟩, p', [], 1⟩

/-! ## `numba/optimization.py` -/

/-- The model as `fit_bhhh` sees it.  `eval i s p`, `pen i s p`: evaluation and penalty times number of cases, at constraint intensity
`i` and sharpness `s`; `violated`: `constraint_violation(on_violation='return')` is not empty; `cct`: `constraint_converge_tolerance()`. -/
structure Env (V D L : Type) where
  move : V → D → ℚ → V
  eval : ℚ → ℚ → V → Eval D L
  pen : ℚ → ℚ → V → ℚ
  violated : V → Bool
  cct : ℚ → ℚ → V → Num ℚ

/-- Arguments of `fit_bhhh`. -/
structure Args where
  momentum : ℕ := 5
  ctol : ℚ := 1 / 10000
  softMaxiter : Option ℕ := none
  smin : ℚ := 1 / 10000
  smax : ℚ := 1
  stepI : ℚ := 3 / 2
  maxI : ℚ := 1000000
  stepS : ℚ := 3 / 2
  maxS : ℚ := 1000000

/-- `penalty` of a result is zero if the intensity is (`numba/model.py:1392, 1398-1404`). -/
def Env.penalty (e : Env V D L) (i s : ℚ) (p : V) : ℚ := if i = 0 then 0 else e.pen i s p

/-- `steps[-momentum:]`; a momentum of zero takes the whole list, as in Python. -/
def lastSteps (m : ℕ) (steps : List ℚ) : List ℚ :=
  if m = 0 then steps else steps.drop (steps.length - m)

/-- `min(2.0*sum(steps[-momentum:]) / len(steps[-momentum:]), maximum_steplen)`, `numba/optimization.py:123-124`. -/
def nextStep (a : Args) (s : ℚ) (steps : List ℚ) : ℚ :=
  if steps = [] then s
  else min (2 * (lastSteps a.momentum steps).sum / (lastSteps a.momentum steps).length) a.smax

/-- The sharpening loop, `numba/optimization.py:148-161`: new sharpness and last evaluation. -/
def sharpen (e : Env V D L) (a : Args) (i : ℚ) (p : V) : ℕ → (sharp pen : ℚ) → (prop : Eval D L) → Option (ℚ × Eval D L × ℕ)
  | fuel, sharp, pen, prop =>
    if 1 / 100 < |pen| ∧ sharp < a.maxS then
      match fuel with
      | 0 => none
      | fuel + 1 =>
        let sharp' := min (sharp * a.stepS) a.maxS
        (sharpen e a i p fuel sharp' (e.penalty i sharp' p) (e.eval i sharp' p)).map fun t => (t.1, t.2.1, t.2.2 + 1)
    else some (sharp, prop, 0)

/-- The variables of the loop.  `p` is both `current_pvals` and the parameter values of the model, which agree at the head of the
loop. -/
structure Vars (V D L : Type) where
  p : V
  i : ℚ
  sharp : ℚ
  cur : Eval D L
  curPen : ℚ
  s : ℚ
  steps : List ℚ

/-- What one pass of the body of the loop does. -/
inductive Pass (V D L : Type) where
  | next (v : Vars V D L) (evals : ℕ)
  | stop (tol : Num ℚ) (evals : ℕ)
  | raise (evals : ℕ)
  | unfinished

/-- After a step (or an abandoned one): `steps.append`, new current values, growing penalties, `numba/optimization.py:178-214`. -/
def advance (e : Env V D L) (a : Args) (v : Vars V D L) (p : V) (prop : Eval D L) (s : ℚ) : Vars V D L × ℕ :=
  let steps := v.steps ++ [s]
  if v.i ≠ 0 ∧ (v.i < a.maxI ∨ v.sharp < a.maxS) then
    let i := min (v.i * a.stepI) a.maxI
    let sharp := min (v.sharp * a.stepS) a.maxS
    ({ p, i, sharp, cur := e.eval i sharp p, curPen := e.penalty i sharp p, s, steps }, 1)
  else ({ v with p, cur := prop, s, steps }, 0)

/-- The body of the loop after the break conditions, `numba/optimization.py:121-214`. -/
def body (e : Env V D L) (a : Args) (fuel : ℕ) (v : Vars V D L) : Pass V D L :=
  match search (fun s => e.move v.p v.cur.dir s) (e.eval v.i v.sharp) (fun r => gt r.ll v.cur.ll) a.smin fuel
      (nextStep a v.s v.steps) with
  | none => .unfinished
  | some t =>
    if le t.res.ll v.cur.ll then
      if e.violated v.p then .raise t.evals
      else if 1 / 100 < |v.curPen| then
        match sharpen e a v.i v.p fuel v.sharp v.curPen t.res with
        | none => .unfinished
        | some (sharp, prop, n) =>
          let (v', m) := advance e a { v with sharp } v.p prop t.steplen
          .next v' (t.evals + n + m)
      else
        let tol := e.cct v.i v.sharp v.p
        if absLt tol a.ctol then .stop tol t.evals
        else
          let (v', m) := advance e a v v.p t.res t.steplen
          .next v' (t.evals + m)
    else
      let (v', m) := advance e a v t.pos t.res t.steplen
      .next v' (t.evals + m)

/-- The break conditions, `numba/optimization.py:104-120`; `iter >= maxiter` is `n = 0`. -/
def breaks (e : Env V D L) (a : Args) (n iter : ℕ) (v : Vars V D L) : Bool :=
  let viol := v.i ≠ 0 && e.violated v.p
  (absLe v.cur.tol a.ctol && !viol) || n == 0 ||
    (match a.softMaxiter with
     | some m => decide (m ≤ iter) && !viol
     | none => false)

/-- The loop, `numba/optimization.py:101-218`. -/
def fitLoop (e : Env V D L) (a : Args) (fuel : ℕ) : (n iter : ℕ) → Vars V D L → Run V L
  | 0, iter, v => ⟨.returned ⟨v.cur.ll, v.cur.tol, iter, v.steps⟩, v.p, [], 0⟩
  | n + 1, iter, v =>
    if breaks e a (n + 1) iter v then ⟨.returned ⟨v.cur.ll, v.cur.tol, iter, v.steps⟩, v.p, [], 0⟩
    else
      match body e a fuel v with
      | .unfinished => ⟨.unfinished, v.p, [], 0⟩
      | .raise m => ⟨.raised, v.p, [], m⟩
      | .stop tol m => ⟨.returned ⟨v.cur.ll, tol, iter + 1, v.steps⟩, v.p, [], m⟩
      | .next v' m =>
        let r := fitLoop e a fuel n (iter + 1) v'
        { r with callbacks := v'.p :: r.callbacks, evals := m + r.evals }

/-- `fit_bhhh(steplen, .., initial_constraint_intensity=, initial_constraint_sharpness=)` without jumpstart, `numba/optimization.py:57-97`.
`i0`, `s0`: the settings after the two optional arguments have been stored. -/
def fitBhhh (e : Env V D L) (a : Args) (fuel : ℕ) (steplen : ℚ) (maxiter : ℕ) (i0 s0 : ℚ) (p : V) : Run V L :=
  let r := fitLoop e a fuel maxiter 0
    { p, i := i0, sharp := s0, cur := e.eval i0 s0 p, curPen := e.penalty i0 s0 p, s := steplen, steps := [] }
  { r with evals := 1 + r.evals }

end Larch.Optim
