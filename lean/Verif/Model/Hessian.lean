import Mathlib.Data.Fin.Basic
import Mathlib.Data.List.FinRange
import Mathlib.Analysis.SpecialFunctions.Log.Base

/-!
# Numerical derivatives (`larch/math/optimize.py`) and the methods that use them

Model of `approx_fprime`, `similarity`, `check_gradient`, `assert_gradient_check`, of `loglike3`, `d2_loglike`, `check_d_loglike`
(`larch/model/abstract_model.pyx:404-420, 536-592`; `larch/numba/model.py:1798-1817` only passes on) and of the evaluations made by
`calculate_parameter_covariance` (`abstract_model.pyx:1064-1110`).  Exact reals with a missing value (NaN, `none`); no infinities and
no rounding.
-/

namespace Larch.Hess

variable {n : Nat} {σ J : Type}

/-- The values of `n` parameters. -/
abbrev Vec (n : Nat) := Fin n → ℝ

/-- `numpy.nan_to_num`. -/
def nanToNum (x : Option ℝ) : ℝ := x.getD 0

/-- `xk + epsilon * ei`, `math/optimize.py:40-42`. -/
def bumped (xk : Vec n) (ε : ℝ) (k : Fin n) : Vec n := fun i => xk i + ε * (if i = k then 1 else 0)

/-- The loop of `_approx_fprime_helper`, `math/optimize.py:39-45`: the rows `grad[k]`.  The function may have side effects on `σ`. -/
noncomputable def fprimeLoop (f : σ → Vec n → (J → Option ℝ) × σ) (xk : Vec n) (ε : ℝ) (f0 : J → ℝ) :
    List (Fin n) → σ → List (J → ℝ) × σ
  | [], s => ([], s)
  | k :: ks, s =>
    let (y, s1) := f s (bumped xk ε k)
    let (rows, s2) := fprimeLoop f xk ε f0 ks s1
    ((fun j => (nanToNum (y j) - f0 j) / (ε * 1)) :: rows, s2)

/-- `approx_fprime(xk, f, epsilon)`, `math/optimize.py:21-46, 111-117` (`f0` is a copy). -/
noncomputable def approxFprime (f : σ → Vec n → (J → Option ℝ) × σ) (xk : Vec n) (ε : ℝ) (s : σ) : List (J → ℝ) × σ :=
  let (y, s1) := f s xk
  fprimeLoop f xk ε (fun j => nanToNum (y j)) (List.finRange n) s1

/-- `set_values(y)` for an array, `parameter_frame.pyx:587-598` (no NaN). -/
def setValues (hold : Fin n → Bool) (cur y : Vec n) : Vec n := fun i => if hold i then cur i else y i

/-- `d_loglike(y)` or `loglike(y)`: set the values, then evaluate there; the values stay. -/
def evalAt (hold : Fin n → Bool) (g : Vec n → J → Option ℝ) (cur y : Vec n) : (J → Option ℝ) × Vec n :=
  (g (setValues hold cur y), setValues hold cur y)

/-- `x` if given, `abstract_model.pyx:417`: `loglike2(x=x)` sets the values. -/
def start (hold : Fin n → Bool) (cur : Vec n) (x : Option (Vec n)) : Vec n :=
  match x with
  | none => cur
  | some y => setValues hold cur y

/-- `d2_loglike(x)`, i.e. the `d2ll` of `loglike3(x)`, `abstract_model.pyx:404-420, 566-567`: the rows and the values of the
parameters afterwards.  `g` is the gradient of the log likelihood. -/
noncomputable def d2Loglike (hold : Fin n → Bool) (g : Vec n → Fin n → Option ℝ) (ε : ℝ) (cur : Vec n) (x : Option (Vec n)) :
    List (Fin n → ℝ) × Vec n :=
  approxFprime (evalAt hold g) (start hold cur x) ε (start hold cur x)

/-- `check_d_loglike()`, `abstract_model.pyx:569-592`, with `check_gradient`, `math/optimize.py:212-213`: the finite differences of the
log likelihood `f`, the analytic gradient, and the values afterwards. -/
noncomputable def checkDLoglike (hold : Fin n → Bool) (f : Vec n → Option ℝ) (g : Vec n → Fin n → Option ℝ) (ε : ℝ) (cur : Vec n) :
    List ℝ × (Fin n → Option ℝ) × Vec n :=
  let (rows, s) := approxFprime (J := Unit) (evalAt hold fun v _ => f v) cur ε cur
  let (a, s) := evalAt hold g s cur
  (rows.map fun r => r (), a, s)

/-- `calculate_parameter_covariance()`, `abstract_model.pyx:1065, 1102`: the Hessian, then `self.bhhh()` at the values the model has by
then; and the values afterwards.  `b` is the BHHH matrix as a function of the values. -/
noncomputable def covarianceParts {B : Type} (hold : Fin n → Bool) (g : Vec n → Fin n → Option ℝ) (b : Vec n → B) (ε : ℝ) (cur : Vec n) :
    List (Fin n → ℝ) × B × Vec n :=
  let (rows, s) := d2Loglike hold g ε cur none
  (rows.map fun r j => -r j, b s, s)

/-! ## The comparison of gradients -/

/-- `similarity(a, b, to_zero)` for one entry, `math/optimize.py:142-153`; `none` is NaN.  `fmax` ignores a NaN.  (A difference of zero
with `to_zero` gives infinity in the code; it only arises for equal values, and 100 is used here.) -/
noncomputable def similarity (toZero : ℝ) (a b : Option ℝ) : Option ℝ :=
  match a, b with
  | some a, some b =>
    if a = b then some 100
    else if b = 0 then some (toZero / |a - b|)
    else if a = 0 then some (toZero / |a - b|)
    else some (-Real.logb 10 (|a - b| / max |a| |b|))
  | _, _ => none

/-- `skip_zeros`, `math/optimize.py:246-247`: the rows kept (a NaN is different from zero). -/
noncomputable def kept (skip : Bool) (l : List (Option ℝ × Option ℝ)) : List (Option ℝ × Option ℝ) :=
  open Classical in if skip then l.filter fun e => !(e.1 = some 0 && e.2 = some 0) else l

/-- `assert df['similarity'].min() >= min_similarity`, `math/optimize.py:257-260`: the minimum skips NaN; the minimum of nothing is NaN,
which is not at least anything. -/
noncomputable def passes (minSim : ℝ) (skip : Bool) (l : List (Option ℝ × Option ℝ)) : Prop :=
  let sims := (kept skip l).filterMap fun e => similarity (1 / 100) e.1 e.2
  sims ≠ [] ∧ ∀ s ∈ sims, minSim ≤ s

end Larch.Hess
