import Verif.Model.Cases

/-!
# The evaluation methods of the numba engine and its work arrays (`larch/numba/model.py:264-500, 564-655, 870-882, 1355-1790`)

All evaluation methods write into one set of arrays kept on the model (`work_arrays`, one row per case).  Depending on the flags the kernel
overwrites only some of them, and the penalties are added in place afterwards.  What the kernel computes for a case at given parameter
values is `Verif.Model.Kernel`; here these numbers are the argument `vals`, except for the two sums over the chosen alternatives, which are
written out.  The fallback for arrays of the wrong shape (`model.py:1392-1396`) is not modelled.
-/

namespace Larch.Runner

open Larch.Cases

/-- The row of one case in `WorkArrays`, `model.py:878-882`; node and parameter positions are naturals. -/
structure Row where
  util : Nat → ℝ
  logprob : Nat → ℝ
  prob : Nat → ℝ
  bhhh : Nat → Nat → ℝ
  dll : Nat → ℝ
  ll : ℝ

/-- The numbers the kernel computes for one case: the quantities (`model.py:585-591`), the utilities of the alternatives (593-620) and of all
nodes (297-375), the logarithms of the conditional probabilities, these probabilities, the probabilities, the log likelihood (380-403); the
weight; and for every alternative that is chosen and has a positive probability the choice and the gradient of its log probability
(`dLL_temp`, `model.py:487-497`). -/
structure Vals where
  quantity : Nat → ℝ
  altUtil : Nat → ℝ
  util : Nat → ℝ
  logprob : Nat → ℝ
  cond : Nat → ℝ
  prob : Nat → ℝ
  ll : ℝ
  wt : ℝ
  chosen : List (ℝ × (Nat → ℝ))

/-- The loop over the alternatives for the gradient, `model.py:425, 479-496`; `tempvalue` is `this_ch` times the gradient. -/
def gradLoop (wt : ℝ) : List (ℝ × (Nat → ℝ)) → (Nat → ℝ) → Nat → ℝ
  | [], d => d
  | a :: as, d => gradLoop wt as (fun p => d p + a.1 * a.2 p * wt)

/-- The same loop for the BHHH matrix, `model.py:476-477, 497-498`. -/
def bhhhLoop (wt : ℝ) : List (ℝ × (Nat → ℝ)) → (Nat → Nat → ℝ) → Nat → Nat → ℝ
  | [], b => b
  | a :: as, b => bhhhLoop wt as (fun p q => b p q + a.2 p * a.2 q * a.1 * wt)

/-- `_numba_master` on one case, `model.py:564-655` and `_numba_utility_to_loglike`, `model.py:264-500`: which rows are overwritten, by the
flags `only_utility`, `return_probability`, `return_grad`, `return_bhhh`. -/
def kernel (only : Nat) (rp rg rb : Bool) (v : Vals) (r : Row) : Row :=
  if only = 3 then { r with util := v.quantity }
  else if only = 1 then { r with util := v.altUtil }
  else
    let r := { r with ll := 0, util := v.util }
    if only = 2 then r
    else
      let r := { r with logprob := v.logprob, ll := r.ll + v.ll }
      if rp || rg || rb then
        let r := { r with logprob := v.cond, prob := v.prob }
        if rg || rb then
          let r := { r with dll := gradLoop v.wt v.chosen (fun _ => 0) }
          if rb then { r with bhhh := bhhhLoop v.wt v.chosen (fun _ _ => 0) } else r
        else r
      else r

/-- The penalty block of `_loglike_runner` on one case, `model.py:1398-1407`. -/
def penalise (pen : ℝ) (dpen : Nat → ℝ) (r : Row) : Row :=
  let r := { r with ll := r.ll + pen }
  let r := { r with dll := fun p => r.dll p + dpen p }
  { r with bhhh := fun p q => r.dll p * r.dll q }

/-- The model and its data as far as the evaluations need them: the number of cases, the weight normalization (`model.py:1435-1440`), the
kernel's numbers for every case and parameter vector, the assignment of parameter values (`set_values`), and the penalty with its
derivative (`constraint_penalty`, `model.py:1304-1331`) as functions of intensity, sharpness and parameters. -/
structure World (Θ A : Type) where
  n : Nat
  wn : ℝ
  vals : Θ → Int → Vals
  setValues : Θ → A → Θ
  pen : ℝ → ℝ → Θ → ℝ
  dpen : ℝ → ℝ → Θ → Nat → ℝ

/-- What an evaluation can change: the parameters, the two settings, the work arrays. -/
structure St (Θ : Type) where
  x : Θ
  intensity : ℝ
  sharpness : ℝ
  rows : Int → Row

/-- A slice, `model.py:1366`. -/
structure Slice where
  start : Option Int
  stop : Option Int
  step : Option Int

/-- The cases of a slice. -/
def Slice.cases (c : Slice) (n : Nat) : List Int := numbaCases n c.start c.stop c.step

/-- `_loglike_runner`, `model.py:1355-1433`: the state after it and the penalty it returns. -/
noncomputable def runner {Θ A : Type} (W : World Θ A) (only : Nat) (rp rg rb : Bool) (x : Option A) (c : Slice) (s : St Θ) : St Θ × ℝ :=
  let s := { s with x := (x.map (W.setValues s.x)).getD s.x }
  let s := { s with rows := fun i => if i ∈ c.cases W.n then kernel only rp rg rb (W.vals s.x i) (s.rows i) else s.rows i }
  if s.intensity ≠ 0 then
    ({ s with rows := fun i =>
        if i ∈ c.cases W.n then penalise (W.pen s.intensity s.sharpness s.x) (W.dpen s.intensity s.sharpness s.x) (s.rows i) else s.rows i },
      W.pen s.intensity s.sharpness s.x)
  else (s, 0)

/-- The evaluation methods. -/
inductive Method where
  | loglike | dLoglike | loglikeCasewise | dLoglikeCasewise | bhhh | probability | utility | quantity | logsums | loglike2 | loglike2Bhhh
deriving DecidableEq

/-- What they return; arrays are lists over the cases of the slice. -/
inductive Out where
  | num (r : ℝ)
  | vec (v : Nat → ℝ)
  | mat (m : Nat → Nat → ℝ)
  | nums (l : List ℝ)
  | vecs (l : List (Nat → ℝ))
  | two (ll : ℝ) (dll : Nat → ℝ)
  | three (ll : ℝ) (dll : Nat → ℝ) (bhhh : Nat → Nat → ℝ) (penalty : ℝ)

/-- The flags each method passes, `model.py:1477, 1496, 1517, 1533, 1556, 1607, 1670, 1697, 1720, 1744, 1776`. -/
def flags : Method → Nat × Bool × Bool × Bool
  | .loglike | .loglikeCasewise => (0, false, false, false)
  | .dLoglike | .dLoglikeCasewise | .loglike2 => (0, false, true, false)
  | .bhhh => (0, false, false, true)
  | .probability => (0, true, false, false)
  | .utility | .logsums => (2, false, false, false)
  | .quantity => (3, false, false, false)
  | .loglike2Bhhh => (0, false, true, true)

/-- `.sum(0)` over the rows of a slice. -/
def sumV (l : List (Nat → ℝ)) : Nat → ℝ := fun p => (l.map (· p)).sum

/-- `.sum(0)` of matrices. -/
def sumM (l : List (Nat → Nat → ℝ)) : Nat → Nat → ℝ := fun p q => (l.map (· p q)).sum

/-- What each method makes of the rows of its slice, `model.py:1441-1790`; `root` is the last node. -/
noncomputable def output (wn : ℝ) (root : Nat) (m : Method) (pen : ℝ) (rows : List Row) : Out :=
  match m with
  | .loglike => .num ((rows.map (·.ll)).sum * wn)
  | .dLoglike => .vec (fun p => sumV (rows.map (·.dll)) p * wn)
  | .loglikeCasewise => .nums (rows.map (fun r => r.ll * wn))
  | .dLoglikeCasewise => .vecs (rows.map (fun r p => r.dll p * wn))
  | .bhhh => .mat (fun p q => sumM (rows.map (·.bhhh)) p q * wn)
  | .probability => .vecs (rows.map (·.prob))
  | .utility => .vecs (rows.map (·.util))
  | .quantity => .vecs (rows.map (·.util))
  | .logsums => .nums (rows.map (·.util root))
  | .loglike2 => .two ((rows.map (·.ll)).sum * wn) (fun p => sumV (rows.map (·.dll)) p * wn)
  | .loglike2Bhhh =>
      .three ((rows.map (·.ll)).sum * wn) (fun p => sumV (rows.map (·.dll)) p * wn) (fun p q => sumM (rows.map (·.bhhh)) p q * wn) pen

/-- A call: an evaluation, or setting one of the two settings. -/
inductive Call (A : Type) where
  | eval (m : Method) (x : Option A) (c : Slice)
  | setIntensity (r : ℝ)
  | setSharpness (r : ℝ)

/-- One evaluation: the new state and what is returned. -/
noncomputable def eval {Θ A : Type} (W : World Θ A) (root : Nat) (m : Method) (x : Option A) (c : Slice) (s : St Θ) : St Θ × Out :=
  let f := flags m
  let r := runner W f.1 f.2.1 f.2.2.1 f.2.2.2 x c s
  (r.1, output W.wn root m r.2 ((c.cases W.n).map r.1.rows))

/-- One call. -/
noncomputable def call {Θ A : Type} (W : World Θ A) (root : Nat) (s : St Θ) : Call A → St Θ
  | .eval m x c => (eval W root m x c s).1
  | .setIntensity r => { s with intensity := r }
  | .setSharpness r => { s with sharpness := r }

/-- A history of calls. -/
noncomputable def history {Θ A : Type} (W : World Θ A) (root : Nat) (s : St Θ) (h : List (Call A)) : St Θ := h.foldl (call W root) s

/-- The status `fit_bhhh` reports at an iteration, `larch/numba/optimization.py:184-191`: penalty, total and actual log likelihood. -/
noncomputable def status (nCases : Nat) (currentLl penalty : ℝ) : ℝ × ℝ × ℝ := (penalty * nCases, currentLl, currentLl - penalty)

end Larch.Runner
