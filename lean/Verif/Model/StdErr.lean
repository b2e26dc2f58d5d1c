import Verif.Model.Covariance
import Verif.Model.Ext
import Mathlib.Analysis.Real.Sqrt
import Mathlib.Algebra.Order.Floor.Defs
import Mathlib.Algebra.Order.Floor.Ring
import Mathlib.Data.List.FinRange

/-!
# Standard errors, t statistics, the report of over-specification and the marks of significance

`larch/model/abstract_model.pyx:1046-1237` (`calculate_parameter_covariance`, `possible_overspecification`),
`larch/model/possible_overspec.py`, and the columns `t Stat`, `Like Ratio`, `Signif` of `larch/model/parameter_frame.pyx:824-1004`
(`parameter_summary`).  Exact real arithmetic; infinities and NaN arise from division by zero and roots of negative numbers.
-/

open Matrix

namespace Larch.StdErr

open Larch.Cov

/-! ## Over-specification -/

open Classical in
/-- `numpy.round` to an integer: halves go to the even neighbour. -/
noncomputable def roundEven (y : ℝ) : ℤ :=
  if y - ⌊y⌋ < 1 / 2 then ⌊y⌋
  else if 1 / 2 < y - ⌊y⌋ then ⌊y⌋ + 1
  else if ⌊y⌋ % 2 = 0 then ⌊y⌋ else ⌊y⌋ + 1

/-- `numpy.round(x, 7)`, `possible_overspec.py:37`. -/
noncomputable def round7 (x : ℝ) : ℝ := (roundEven (x * 10 ^ 7) : ℝ) / 10 ^ 7

/-- `numpy.linalg.eigh` reads the lower triangle only. -/
def lower {m : Type} [LinearOrder m] (a : Matrix m m ℝ) : Matrix m m ℝ := fun i j => if j ≤ i then a i j else a j i

/-- What `numpy.linalg.eigh(a)` returns: the eigenvalue and the eigenvector number `i`, for as many `i` as there are rows. -/
structure Eigen (m : Type) where
  val : m → ℝ
  vec : m → m → ℝ

/-- The contract of `numpy.linalg.eigh`: orthonormal eigenvectors of the symmetric matrix in the lower triangle. -/
structure IsEigh {m : Type} [LinearOrder m] [Fintype m] (a : Matrix m m ℝ) (e : Eigen m) : Prop where
  eig : ∀ i, lower a *ᵥ e.vec i = e.val i • e.vec i
  orth : ∀ i j, e.vec i ⬝ᵥ e.vec j = if i = j then 1 else 0

/-- An `eigh` for matrices of any size; `none` is `LinAlgError`. -/
abbrev Eigh (p : Nat) := (q : Fin p → Bool) → Matrix (Free q) (Free q) ℝ → Option (Eigen (Free q))

open Classical in
/-- `holdfast_vector |= (a == 0).all(0)`, `possible_overspec.py:24-28`: parameters left out of the matrix. -/
noncomputable def leftOut {p : Nat} (hold : Fin p → Bool) (a : Matrix (Fin p) (Fin p) ℝ) : Fin p → Bool :=
  fun j => hold j || decide (∀ i, a i j = 0)

/-- One item of the report: the eigenvalue, the parameters and their weights; or the text of a `LinAlgError`. -/
inductive Report (p : Nat) where
  | flat (eigenvalue : ℝ) (params : List (Fin p)) (weights : List ℝ)
  | linAlgError

open Classical in
/-- `v_unpacked`, `possible_overspec.py:36-39`. -/
noncomputable def unpack {p : Nat} (q : Fin p → Bool) (v : Free q → ℝ) : Fin p → ℝ :=
  fun i => if h : q i = false then round7 (v ⟨i, h⟩) else 0

open Classical in
/-- The item for eigenvector number `i`, `possible_overspec.py:34-40` and `abstract_model.pyx:1073-1078` (parameters by position; the names
are those of `pf.index`). -/
noncomputable def item {p : Nat} (q : Fin p → Bool) (e : Eigen (Free q)) (i : Fin p) : Option (Report p) :=
  if h : q i = false then
    if |e.val ⟨i, h⟩| < 0.001 then
      let v := unpack q (e.vec ⟨i, h⟩)
      let ox := (List.finRange p).filter (fun j => decide (v j ≠ 0))
      some (.flat (e.val ⟨i, h⟩) ox (ox.map v))
    else none
  else none

/-- `compute_possible_overspecification` once the parameters to be left out are known, `possible_overspec.py:29-41`, with the conversion in
`abstract_model.pyx:1069-1078`. -/
noncomputable def overspecOf {p : Nat} (eigh : Eigh p) (hess : Matrix (Fin p) (Fin p) ℝ) (q : Fin p → Bool) : List (Report p) :=
  match eigh q (block q hess) with
  | none => [.linAlgError]
  | some e => (List.finRange p).filterMap (item q e)

/-- `compute_possible_overspecification(hess, holdfast)`, `possible_overspec.py:9-41`. -/
noncomputable def overspec {p : Nat} (eigh : Eigh p) (hess : Matrix (Fin p) (Fin p) ℝ) (hold : Fin p → Bool) : List (Report p) :=
  overspecOf eigh hess (leftOut hold hess)

/-- `self._possible_overspecification` after `calculate_parameter_covariance`, `abstract_model.pyx:1069-1079`: written only if there is
something to report. -/
noncomputable def recorded {p : Nat} (eigh : Eigh p) (old : Option (List (Report p))) (hess : Matrix (Fin p) (Fin p) ℝ)
    (hold : Fin p → Bool) : Option (List (Report p)) :=
  if (overspec eigh hess hold).isEmpty then old else some (overspec eigh hess hold)

/-! ## Standard errors -/

/-- `np.sqrt` of a finite number. -/
noncomputable def sqrtX (x : ℝ) : X := if x < 0 then .nan else .fin (Real.sqrt x)

variable {n : Type} [Fintype n] [DecidableEq n]

/-- The columns `holdfast`, `value`, `nullvalue` of the parameter frame. -/
structure Param (n : Type) where
  hold : n → Bool
  value : n → ℝ
  null : n → ℝ

/-- A constraint at the estimates, with `get_parameters()` and `get_binding_note(pvals)`. -/
structure Con (n : Type) extends AtEst n where
  params : List n
  note : String

/-- The columns written by `calculate_parameter_covariance`, and the stored matrix; `none` is a column that does not exist. -/
structure Cols (n : Type) where
  cov : Matrix n n ℝ
  stdErr : n → X
  tStat : n → X
  robustStdErr : n → X
  robustT : n → X
  unconstrained : Option ((n → X) × (n → X))
  constrained : Option (n → String)

/-- `np.sqrt(m.diagonal())`. -/
noncomputable def stdErrs (s : Matrix n n ℝ) : n → X := fun i => sqrtX (s i i)

/-- `(value - nullvalue) / std_err`. -/
noncomputable def tStats (f : Param n) (se : n → X) : n → X := fun i => (.fin (f.value i) - .fin (f.null i)) / se i

open Classical in
/-- The constraints that are active, `abstract_model.pyx:1192-1194`. -/
noncomputable def binding (cs : List (Con n)) : List (Con n) := cs.filter (fun c => decide (|c.value| < c.tol))

open Classical in
/-- `if t_stat > 1e5: t_stat = inf, std_err = nan`, `abstract_model.pyx:1209-1211`. -/
noncomputable def fixHigh (st : (n → X) × (n → X)) (p : n) : (n → X) × (n → X) :=
  if X.gt (st.2 p) (.fin 100000) then (Function.update st.1 p .nan, Function.update st.2 p .pinf) else st

open Classical in
/-- `if t_stat < -1e5: t_stat = -inf, std_err = nan`, `abstract_model.pyx:1212-1214`. -/
noncomputable def fixLow (st : (n → X) × (n → X)) (p : n) : (n → X) × (n → X) :=
  if X.gt (.fin (-100000)) (st.2 p) then (Function.update st.1 p .nan, Function.update st.2 p .ninf) else st

/-- Both, `abstract_model.pyx:1209-1214`. -/
noncomputable def fix (st : (n → X) × (n → X)) (p : n) : (n → X) × (n → X) := fixLow (fixHigh st p) p

/-- The notes of a parameter: one line per active constraint in which it occurs, `abstract_model.pyx:1205-1218`. -/
def notesOf (b : List (Con n)) (p : n) : List String := b.flatMap (fun c => (c.params.filter (fun q => q = p)).map (fun _ => c.note))

/-- `calculate_parameter_covariance` from the covariance matrices on, `abstract_model.pyx:1136-1222`; `cs` are the constraints of the model
and those of its bounds (`model.py:842-878`).  The columns that are not written stay. -/
noncomputable def columns (f : Param n) (cov robust : Matrix n n ℝ) (cs : List (Con n)) (old : Cols n) : Cols n :=
  let se := stdErrs cov
  let base : Cols n :=
    { old with
      cov := cov
      stdErr := se
      tStat := tStats f se
      robustStdErr := stdErrs robust
      robustT := tStats f (stdErrs robust) }
  if cs.isEmpty then base
  else
    let s := Cov.constrained cov (cs.map Con.toAtEst)
    let b := binding cs
    let c1 : Cols n :=
      { base with
        unconstrained := some (base.stdErr, base.tStat)
        cov := s
        stdErr := stdErrs s
        tStat := tStats f (stdErrs s) }
    if !b.isEmpty || decide (∃ i, f.hold i = true) then
      let st := (b.flatMap Con.params).foldl fix (c1.stdErr, c1.tStat)
      { c1 with
        stdErr := fun i => if f.hold i then .nan else st.1 i
        tStat := fun i => if f.hold i then .nan else st.2 i
        constrained := some (fun i => if f.hold i then "fixed value" else "\n".intercalate (notesOf b i)) }
    else c1

/-! ## Marks of significance -/

/-- A number in the columns `t Stat` and `Like Ratio`. -/
inductive Shown where
  | big
  | negBig
  | num (r : ℝ)
  | na

open Classical in
/-- `fixie`, `parameter_frame.pyx:943-952`; a number is then formatted with two decimals. -/
noncomputable def fixie : X → Shown
  | .fin r => if 1000 < r then .big else if r < -1000 then .negBig else .num r
  | _ => .na

/-- `x == NBSP+"NA"`. -/
def Shown.isNa : Shown → Bool
  | .na => true
  | _ => false

open Classical in
/-- `numpy.isfinite`. -/
noncomputable def finite : X → Bool
  | .fin _ => true
  | _ => false

/-- `numpy.absolute`. -/
noncomputable def absX : X → X
  | .fin r => .fin |r|
  | .ninf => .pinf
  | x => x

open Classical in
/-- Column `Signif` as far as the column `t Stat` goes, `parameter_frame.pyx:954-960`; `none`: no such column. -/
noncomputable def signifT : Option X → String
  | none => ""
  | some t =>
    let s := ""
    let s := if X.gt (absX t) (.fin 1.9600) then "*" else s
    let s := if X.gt (absX t) (.fin 2.5758) then "**" else s
    let s := if X.gt (absX t) (.fin 3.2905) then "***" else s
    if (fixie t).isNa then "" else s

/-- `non_finite_t`, `parameter_frame.pyx:966-969`. -/
noncomputable def nonFiniteT : Option X → Bool
  | none => true
  | some t => !finite t

open Classical in
/-- Column `Signif`, `parameter_frame.pyx:954-975`, from `t_stat` and `likelihood_ratio` (`none`: no such column). -/
noncomputable def signif (t lr : Option X) : String :=
  let s := signifT t
  match lr with
  | none => s
  | some l =>
    let s := if finite l && nonFiniteT t then "[]" else s
    let s := if X.gt l (.fin 1.9207) ∧ nonFiniteT t then "[*]" else s
    let s := if X.gt l (.fin 3.3174) ∧ nonFiniteT t then "[**]" else s
    if X.gt l (.fin 5.4138) ∧ nonFiniteT t then "[***]" else s

end Larch.StdErr
