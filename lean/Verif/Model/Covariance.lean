import Mathlib.Data.Matrix.Mul
import Mathlib.Data.Real.Basic
import Mathlib.Algebra.BigOperators.Ring.Finset

/-!
# Parameter covariance (`larch/model/abstract_model.pyx:237-258, 1046-1230`, `larch/linalg/__init__.py`)

Matrices over exact reals, indexed by the parameters.  Left out: warnings, standard errors and t statistics (functions of the diagonal),
non-finite input.
-/

open Matrix

namespace Larch.Cov

variable {n : Type} [Fintype n] [DecidableEq n]

/-- The parameters that are not held fast. -/
abbrev Free (hold : n → Bool) := { i : n // hold i = false }

/-- `matrix[take].reshape(dense_s, dense_s)`, `abstract_model.pyx:239-249, 1080-1092`: rows and columns of the free parameters. -/
def block (hold : n → Bool) (a : Matrix n n ℝ) : Matrix (Free hold) (Free hold) ℝ := a.submatrix Subtype.val Subtype.val

/-- `result = np.full_like(matrix, 0); result[take] = x.reshape(-1)`, `abstract_model.pyx:255-256, 1098-1099, 1111-1112`. -/
def scatter (hold : n → Bool) (x : Matrix (Free hold) (Free hold) ℝ) : Matrix n n ℝ :=
  fun i j => if h : hold i = false ∧ hold j = false then x ⟨i, h.1⟩ ⟨j, h.2⟩ else 0

/-- What `general_inverse` computes, `linalg/__init__.py:1-22`: the inverse, or for a nearly singular matrix the pseudo-inverse (`pinvh`); both
are characterised by Penrose's equations. -/
structure GeneralInverse {m : Type} [Fintype m] (a x : Matrix m m ℝ) : Prop where
  axa : a * x * a = a
  xax : x * a * x = x
  ax_symm : (a * x)ᵀ = a * x
  xa_symm : (x * a)ᵀ = x * a

/-- `covariance_matrix` before constraints, given the inverse `x` of the free block of the information matrix. -/
def covariance (hold : n → Bool) (x : Matrix (Free hold) (Free hold) ℝ) : Matrix n n ℝ := scatter hold x

/-- `robust_covariance_matrix`, `abstract_model.pyx:1101-1112`. -/
def robust (hold : n → Bool) (x : Matrix (Free hold) (Free hold) ℝ) (bhhh : Matrix n n ℝ) : Matrix n n ℝ :=
  scatter hold (x * block hold bhhh * x)

open Classical in
/-- One binding constraint with gradient `b`: `s - (1/den) s b bᵀ s` if `den = b s b` is not zero, `abstract_model.pyx:1195-1198`. -/
noncomputable def project (s : Matrix n n ℝ) (b : n → ℝ) : Matrix n n ℝ :=
  if b ⬝ᵥ s *ᵥ b ≠ 0 then s - (1 / (b ⬝ᵥ s *ᵥ b)) • vecMulVec (s *ᵥ b) (b ᵥ* s) else s

/-- A constraint at the estimates: value of `fun`, gradient, tolerance. -/
structure AtEst (n : Type) where
  value : ℝ
  jac : n → ℝ
  tol : ℝ

open Classical in
/-- The loop over the constraints, `abstract_model.pyx:1192-1198` (the same in `larch/model/model.py:906-913`). -/
noncomputable def constrained (s : Matrix n n ℝ) (cs : List (AtEst n)) : Matrix n n ℝ :=
  cs.foldl (fun s c => if |c.value| < c.tol then project s c.jac else s) s

end Larch.Cov
