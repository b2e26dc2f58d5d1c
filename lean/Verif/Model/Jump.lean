import Verif.Model.Cases
import Verif.Model.Covariance

/-!
# Jump-starting an estimation

Model of `jumpstart_bhhh` of both engines (`larch/model/abstract_model.pyx:298-319`, `larch/numba/model.py:1859-1907`), with
`_free_slots_inverse_matrix` (`abstract_model.pyx:236-258`), and of its calls in `simple_fit_bhhh` (`abstract_model.pyx:353-355`) and
`fit_bhhh` (`larch/numba/optimization.py:70-82`).

Exact reals, parameters indexed by a finite type.  The score and the weight of a case are given; `inv` is `general_inverse`
(`larch/linalg/__init__.py:3-22`).  Left out: non-finite matrices (`general_inverse` raises), penalties for constraints (the
intensity is 0 in the calls modelled unless the user sets it), `weight_normalization` (it multiplies gradient and matrix and cancels).
-/

namespace Larch.Jump

open Matrix Larch.Cov Larch.Cases

variable {n : Type} [Fintype n] [DecidableEq n]

/-- What an estimation reads: number of cases, weights, scores (derivative of the log likelihood of a case), `holdfast`. -/
structure Problem (n : Type) [Fintype n] where
  nCases : Nat
  weight : Int → ℝ
  score : (n → ℝ) → Int → n → ℝ
  hold : n → Bool
  inv : Matrix (Free hold) (Free hold) ℝ → Matrix (Free hold) (Free hold) ℝ

/-- `result.dll` of `loglike2_bhhh` on the cases `cs` at the values `v`: `numba/model.py:1780`, `mnl.pyx:640-660`. -/
noncomputable def dll (P : Problem n) (cs : List Int) (v : n → ℝ) : n → ℝ :=
  fun i => (cs.map fun c => P.weight c * P.score v c i).sum

/-- `result.bhhh` of `loglike2_bhhh`: `numba/model.py:1781`. -/
noncomputable def bhhh (P : Problem n) (cs : List Int) (v : n → ℝ) : Matrix n n ℝ :=
  fun i j => (cs.map fun c => P.weight c * (P.score v c i * P.score v c j)).sum

/-- `bhhh_inv = _free_slots_inverse_matrix(bhhh); direction = np.dot(dll, bhhh_inv)`, `abstract_model.pyx:236-258, 317-318`,
`numba/model.py:1902-1903`. -/
noncomputable def direction (P : Problem n) (cs : List Int) (v : n → ℝ) : n → ℝ :=
  dll P cs v ᵥ* scatter P.hold (P.inv (block P.hold (bhhh P cs v)))

/-- `set_values(array)`, `parameter_frame.pyx:583-598`: values of parameters held fast are kept (C18). -/
def setValues (P : Problem n) (old new : n → ℝ) : n → ℝ := fun i => if P.hold i then old i else new i

/-! ## numba -/

/-- The cases of the slice `start_case=j0, step_case=jumpstart_split`, `numba/model.py:1893-1896` (`stop_case` is `None`). -/
def sliceN (nCases split j0 : Nat) : List Int := numbaCases nCases (some (j0 : Int)) none (some (split : Int))

/-- The loop over the slices, `numba/model.py:1893-1906`: `j` is the local `j_pvals`, `v` the values of the model. -/
noncomputable def loopN (P : Problem n) (steplen : ℝ) (split : Nat) : List Nat → (n → ℝ) → (n → ℝ) → (n → ℝ)
  | [], _, v => v
  | j0 :: rest, j, v =>
    loopN P steplen split rest (j + steplen • direction P (sliceN P.nCases split j0) v)
      (setValues P v (j + steplen • direction P (sliceN P.nCases split j0) v))

/-- One round, `numba/model.py:1885-1906`. -/
noncomputable def roundN (P : Problem n) (steplen : ℝ) (split : Nat) (v : n → ℝ) : n → ℝ :=
  loopN P steplen split (List.range split) v v

/-- `jumpstart_bhhh(steplen, jumpstart, jumpstart_split)` of the numba engine, `numba/model.py:1859-1907`.  `leave_out`, `keep_only` and
`subsample` are passed to `loglike2_bhhh`, which does not use them (`numba/model.py:1768-1777`). -/
noncomputable def jumpN (P : Problem n) (steplen : ℝ) (jumpstart split : Nat) (v : n → ℝ) : n → ℝ :=
  (roundN P steplen split)^[jumpstart] v

/-! ## the compiled engine -/

/-- `n_cases//jumpstart_split + (1 if n_cases%jumpstart_split else 0)`, `abstract_model.pyx:312`. -/
def sliceLen (nCases split : Nat) : Nat := nCases / split + if nCases % split ≠ 0 then 1 else 0

/-- `jump_breaks`, `abstract_model.pyx:312`. -/
def breaks (nCases split : Nat) : List Int := pyRange 0 nCases (sliceLen nCases split) ++ [-1]

/-- Which cases cross validation leaves out. -/
structure Cv where
  leaveOut : Int
  keepOnly : Int
  subsample : Int

/-- The default: `leave_out=-1, keep_only=-1, subsample=-1`. -/
def noCv : Cv := ⟨-1, -1, -1⟩

/-- The cases the compiled engine visits for `start_case=j0, stop_case=j1`, `mnl.pyx:535-536, 573-579`. -/
def sliceC (nCases : Nat) (cv : Cv) (j : Int × Int) : List Int :=
  (pyRange j.1 (effStop nCases ⟨j.1, j.2, 1, cv.leaveOut, cv.keepOnly, cv.subsample⟩) 1).filter fun c =>
    !skips ⟨j.1, j.2, 1, cv.leaveOut, cv.keepOnly, cv.subsample⟩ c

/-- `zip(jump_breaks[:-1], jump_breaks[1:])` and the cases of each, `abstract_model.pyx:313-316`. -/
def slicesC (nCases split : Nat) (cv : Cv) : List (List Int) :=
  ((breaks nCases split).zip (breaks nCases split).tail).map (sliceC nCases cv)

/-- The loop, `abstract_model.pyx:313-319`: `j` is `j_pvals`, which is not changed. -/
noncomputable def loopC (P : Problem n) (steplen : ℝ) (j : n → ℝ) : List (List Int) → (n → ℝ) → (n → ℝ)
  | [], v => v
  | cs :: rest, v => loopC P steplen j rest (setValues P v (j + steplen • direction P cs v))

/-- One round, `abstract_model.pyx:309-319`. -/
noncomputable def roundC (P : Problem n) (steplen : ℝ) (split : Nat) (cv : Cv) (v : n → ℝ) : n → ℝ :=
  loopC P steplen v (slicesC P.nCases split cv) v

/-- `jumpstart_bhhh` of the compiled engine, `abstract_model.pyx:298-319`: without a slice length (`jumpstart_split=0`: division by zero;
no cases: `range` with step 0) the first round raises. -/
noncomputable def jumpC (P : Problem n) (steplen : ℝ) (jumpstart split : Nat) (cv : Cv) (v : n → ℝ) : Option (n → ℝ) :=
  if jumpstart = 0 then some v
  else if split = 0 ∨ P.nCases = 0 then none
  else some ((fun u => roundC P steplen split cv u)^[jumpstart] v)

/-- The jump start inside `simple_fit_bhhh(jumpstart=, jumpstart_split=, leave_out=, keep_only=, subsample=)`,
`abstract_model.pyx:353-355`: only the first two arguments are passed on, `steplen` is the default 0.5. -/
noncomputable def fitJumpC (P : Problem n) (jumpstart split : Nat) (_cv : Cv) (v : n → ℝ) : Option (n → ℝ) :=
  jumpC P (1 / 2) jumpstart split noCv v

/-- The jump start inside `fit_bhhh(jumpstart=, jumpstart_split=, leave_out=, keep_only=, subsample=)` of the numba engine,
`numba/optimization.py:70-82`: again only the first two are passed on. -/
noncomputable def fitJumpN (P : Problem n) (jumpstart split : Nat) (_cv : Cv) (v : n → ℝ) : n → ℝ :=
  if jumpstart = 0 then v else jumpN P (1 / 2) jumpstart split v

end Larch.Jump
