import Verif.Model.Covariance

/-!
# Specification: steps of the BHHH algorithm on groups of cases

Written from the description of the algorithm: for a group of cases, with gradient `∑ w g` and matrix `∑ w g gᵀ`, the step of the free
parameters is the (pseudo-)inverse of the matrix times the gradient; parameters held fast do not move.  A jump start makes one such
step for each group of cases, every step from where the previous one ended.
-/

namespace Larch.Spec

open Matrix

variable {n : Type} [Fintype n]

/-- `d` is the BHHH step of the cases `cs`, with weights `w` and scores `g` (taken at the point where the step starts). -/
def IsStep (hold : n → Bool) (w : Int → ℝ) (g : Int → n → ℝ) (cs : List Int) (d : n → ℝ) : Prop :=
  (∀ i, hold i = true → d i = 0) ∧
  ∃ X : Matrix { i // hold i = false } { i // hold i = false } ℝ,
    Larch.Cov.GeneralInverse (fun (a b : { i // hold i = false }) => (cs.map fun c => w c * (g c a * g c b)).sum) X ∧
    ∀ a : { i // hold i = false }, d a = ∑ b, X a b * (cs.map fun c => w c * g c b).sum

/-- From `p`, one step of length `s` for each group, each from where the previous one ended, leads to `q`. -/
inductive Walk (hold : n → Bool) (w : Int → ℝ) (g : (n → ℝ) → Int → n → ℝ) (s : ℝ) : List (List Int) → (n → ℝ) → (n → ℝ) → Prop
  | done (p : n → ℝ) : Walk hold w g s [] p p
  | step {cs : List Int} {rest : List (List Int)} {p d q : n → ℝ} :
      IsStep hold w (g p) cs d → Walk hold w g s rest (p + s • d) q → Walk hold w g s (cs :: rest) p q

/-- Every case from 0 to `m - 1` is in exactly one group, once. -/
def Covers (m : Nat) (groups : List (List Int)) : Prop := groups.flatten.Perm ((List.range m).map fun (i : Nat) => (i : Int))

end Larch.Spec
