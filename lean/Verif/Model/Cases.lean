import Mathlib.Data.Real.Basic
import Mathlib.Algebra.BigOperators.Group.List.Basic

/-!
# Case selection and the threaded case loop

Model of the drivers `mnl_d_log_likelihood_from_dataframes_all_rows` (`larch/model/mnl.pyx:461-695`) and
`nl_d_log_likelihood_from_dataframes_all_rows` (`larch/model/nl.pyx:423-730`), which share the case loop, and of
the case slices of the numba model (`larch/numba/model.py:1362-1490`).

What a case contributes (its log likelihood and gradient) is a parameter of the model here; it is modelled for the
numba code in `Verif.Model.Kernel`.
-/

namespace Larch.Cases

/-- The arguments that select cases, `larch/model/mnl.pyx:469-475`, `larch/model/nl.pyx:432-438`.
C ints, modelled as unbounded integers. -/
structure Req where
  start : Int
  stop : Int
  step : Int
  leaveOut : Int
  keepOnly : Int
  subsample : Int

/-- `if stop_case<0: stop_case = n_cases`, `larch/model/mnl.pyx:535-536`, `larch/model/nl.pyx:501-502`. -/
def effStop (nCases : Nat) (r : Req) : Int := if r.stop < 0 then nCases else r.stop

/-- `range(a, b, s)` / `prange(a, b, s)` for `s > 0` (other steps are rejected before, `mnl.pyx:527-528`);
the empty list for `s ≤ 0`. -/
def pyRange (a b s : Int) : List Int :=
  if h : 0 < s ∧ a < b then a :: pyRange (a + s) b s else []
termination_by (b - a).toNat
decreasing_by omega

/-- `n_cases_local`, `larch/model/mnl.pyx:542`, `larch/model/nl.pyx:508` (Python integer division: the
functions do not use `cdivision`). -/
def nLocal (nCases : Nat) (r : Req) : Int :=
  let d := effStop nCases r - r.start
  d.fdiv r.step + (if d.fmod r.step ≠ 0 then 1 else 0)

/-- `c_local`, `larch/model/mnl.pyx:581`, `larch/model/nl.pyx:560`. -/
def cLocal (r : Req) (c : Int) : Int := (c - r.start).fdiv r.step

/-- The two `continue` tests, `larch/model/mnl.pyx:575-579`, `larch/model/nl.pyx:554-558`. -/
def skips (r : Req) (c : Int) : Bool :=
  (decide (0 ≤ r.leaveOut) && decide (c.fmod r.subsample = r.leaveOut)) ||
  (decide (0 ≤ r.keepOnly) && decide (c.fmod r.subsample ≠ r.keepOnly))

/-- The state of the loop: the reduction variable `ll`, the `LL_case` array, and the per-thread gradient
totals `dLL_total[thread, param]`. -/
structure Acc where
  ll : ℝ
  llCase : Int → ℝ
  dllTotal : Nat → Nat → ℝ

/-- The zeroed arrays before the loop, `larch/model/mnl.pyx:560-567`. -/
def Acc.zero : Acc := ⟨0, fun _ => 0, fun _ _ => 0⟩

/-- One loop turn executed by thread `t` on case `c`, `larch/model/mnl.pyx:573-646`; `f c` is the (weighted) log
likelihood of the case, `g c` its (weighted) gradient, `persist` is `persist & PERSIST_LOGLIKE_CASEWISE`. -/
noncomputable def turn (r : Req) (persist : Bool) (f : Int → ℝ) (g : Int → Nat → ℝ) (s : Acc) (tc : Nat × Int) :
    Acc :=
  if skips r tc.2 then s
  else
    let row := if persist then cLocal r tc.2 else tc.1
    { ll := s.ll + f tc.2
      llCase := fun i => if i = row then s.llCase i + f tc.2 else s.llCase i
      dllTotal := fun t p => if t = tc.1 then s.dllTotal t p + g tc.2 p else s.dllTotal t p }

/-- A schedule of the parallel loop: which thread runs which case, in which order.  OpenMP may choose any. -/
def Schedule (nThreads nCases : Nat) (r : Req) (sched : List (Nat × Int)) : Prop :=
  (sched.map Prod.snd).Perm (pyRange r.start (effStop nCases r) r.step) ∧ ∀ tc ∈ sched, tc.1 < nThreads

/-- Result dictionary. -/
structure Result where
  ll : ℝ
  dll : Nat → ℝ
  llCasewise : Int → ℝ

/-- The driver, `larch/model/mnl.pyx:527-680`, `larch/model/nl.pyx:493-700`: reject non-positive steps, run the loop
under the given schedule, multiply by the weight normalization (not applied to `ll_casewise`). -/
noncomputable def drive (nThreads : Nat) (r : Req) (persist : Bool) (norm : ℝ) (f : Int → ℝ)
    (g : Int → Nat → ℝ) (sched : List (Nat × Int)) : Except String Result :=
  if r.step ≤ 0 then .error "NotImplementedError"
  else
    let s := sched.foldl (turn r persist f g) Acc.zero
    .ok { ll := s.ll * norm
          dll := fun p => ((List.range nThreads).map (fun t => s.dllTotal t p)).sum * norm
          llCasewise := s.llCase }

/-! ## numba slices -/

/-- Resolution of one slice bound against a length, for positive step: negative counts from the end, then clamp
(the documented behaviour of Python slicing, used for `work_arrays.cs[caseslice]` and `_data_arrays.cs[caseslice]`,
`larch/numba/model.py:1373, 1230, 874-875`). -/
def clampBound (n : Nat) (i : Int) : Int :=
  if i < 0 then max 0 (i + n) else min i n

/-- The cases selected by `slice(start, stop, step)` on `n` cases, for positive step (default 1). -/
def numbaCases (n : Nat) (start stop : Option Int) (step : Option Int) : List Int :=
  pyRange ((start.map (clampBound n)).getD 0) ((stop.map (clampBound n)).getD n) (step.getD 1)

/-- `NumbaModel.loglike`, `larch/numba/model.py:1441-1485`, without constraints: the sum over the sliced cases.
`leave_out`, `keep_only` and `subsample` arrive in `**kwargs` and are not used. -/
noncomputable def numbaLoglike (n : Nat) (norm : ℝ) (f : Int → ℝ) (start stop step : Option Int)
    (_leaveOut _keepOnly _subsample : Int) : ℝ :=
  ((numbaCases n start stop step).map f).sum * norm

/-! ## Which evaluations count for the best log likelihood -/

/-- The compiled models report a log likelihood to `_check_if_best` under this test, `larch/model/controller.pyx:733,
799, 919`. -/
def compiledReports (r : Req) : Bool := decide (r.start = 0) && decide (r.stop = -1) && decide (r.step = 1)

/-- The numba models report under this test, `larch/numba/model.py:1481, 1753, 1788`. -/
def numbaReports (start stop step : Option Int) : Bool := start.isNone && stop.isNone && step.isNone

/-! ## Cross validation -/

/-- `cross_validate`, `larch/model/abstract_model.pyx:700-705`: for every fold estimate without the fold
(`fit fold` is the parameter vector `maximize_loglike(leave_out=fold, subsample=cv)` arrives at) and add the log
likelihood of `loglike(keep_only=fold, subsample=cv)` at these parameters. -/
noncomputable def crossValidate {Θ : Type} (cv : Nat) (fit : Nat → Θ) (loglike : Θ → Int → Int → ℝ) : ℝ :=
  (List.range cv).foldl (fun a fold => a + loglike (fit fold) fold cv) 0

end Larch.Cases
