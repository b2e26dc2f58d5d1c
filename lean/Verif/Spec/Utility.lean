import Verif.Model.Kernel

/-!
# Specification: declared utility functions

What a `quantity_ca`, `utility_ca` and `utility_co` declaration means for one case, over the reals.  Uses only
the input types of the kernel model (term lists), none of its computations.
-/

namespace Larch.Spec

open Larch.Kernel

/-- Value of a data reference of a utility_co term: a constant term counts 1. -/
def coValue (co : Nat → ℝ) : Option Nat → ℝ
  | none => 1
  | some d => co d

/-- Size (quantity) of an alternative with data `x`: `∑ scale * exp(theta) * x`. -/
noncomputable def size (θ : Nat → ℝ) (q : List CaTerm) (x : Nat → ℝ) : ℝ :=
  (q.map (fun t => t.scale * Real.exp (θ t.param) * x t.data)).sum

/-- Coefficient on the log of the size. -/
def sizeScale (θ : Nat → ℝ) (M : Terms) : ℝ :=
  match M.qScale with
  | some s => θ s
  | none => 1

/-- The declared utility of alternative `a`. -/
noncomputable def utility (M : Terms) (θ : Nat → ℝ) (co : Nat → ℝ) (ca : Nat → Nat → ℝ) (a : Nat) : ℝ :=
  (if M.q = [] then 0 else sizeScale θ M * Real.log (size θ M.q (ca a))) +
  (M.ca.map (fun t => t.scale * θ t.param * ca a t.data)).sum +
  ((M.co.filter (fun t => t.alt = a)).map (fun t => t.scale * θ t.param * coValue co t.data)).sum

/-- The data the utility functions of available alternatives refer to is finite (unavailable alternatives'
dense data may be anything, e.g. NaN). -/
structure FiniteData (nAlts : Nat) (M : Terms) (C : Case) : Prop where
  ca : ∀ a < nAlts, C.av a = true → ∀ t ∈ M.q ++ M.ca, ∃ r, C.ca a t.data = .fin r
  co : ∀ t ∈ M.co, t.alt < nAlts → C.av t.alt = true → ∀ d, t.data = some d → ∃ r, C.co d = .fin r

/-- The real-valued dense data. -/
def caReal (C : Case) (a d : Nat) : ℝ := (C.ca a d).toReal
/-- The real-valued idco data. -/
def coReal (C : Case) (d : Nat) : ℝ := (C.co d).toReal

/-- Every available alternative has positive size (vacuous without quantity terms). -/
def PositiveSize (nAlts : Nat) (M : Terms) (θ : Nat → ℝ) (C : Case) : Prop :=
  M.q ≠ [] → ∀ a < nAlts, C.av a = true → 0 < size θ M.q (caReal C a)

end Larch.Spec

namespace Larch.Spec

open Larch.Kernel

/-- Coefficient of parameter `p` in the linear (utility_ca and utility_co) part. -/
noncomputable def linCoef (M : Terms) (co : Nat → ℝ) (ca : Nat → Nat → ℝ) (a p : Nat) : ℝ :=
  ((M.ca.filter (fun t => t.param = p)).map (fun t => t.scale * ca a t.data)).sum +
  ((M.co.filter (fun t => t.alt = a ∧ t.param = p)).map (fun t => t.scale * coValue co t.data)).sum

/-- Partial derivative of the log-size part with respect to parameter `p`. -/
noncomputable def sizeCoef (M : Terms) (θ : Nat → ℝ) (ca : Nat → Nat → ℝ) (a p : Nat) : ℝ :=
  if M.q = [] then 0
  else sizeScale θ M * size θ (M.q.filter (fun t => t.param = p)) (ca a) / size θ M.q (ca a) +
    (if M.qScale = some p then Real.log (size θ M.q (ca a)) else 0)

end Larch.Spec
