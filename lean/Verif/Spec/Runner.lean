import Verif.Model.Runner

/-!
# What an evaluation should return

In terms of the kernel's numbers for the cases of the slice, at the parameters and settings in force, with no reference to arrays.
-/

namespace Larch.Runner.Spec

open Larch.Runner

variable {Θ A : Type}

/-- What is in force: parameters, intensity, sharpness. -/
structure Now (Θ : Type) where
  x : Θ
  intensity : ℝ
  sharpness : ℝ

/-- An evaluation can change the parameters only by the values it is given; a setting changes that setting. -/
def Now.after (W : World Θ A) (s : Now Θ) : List (Call A) → Now Θ
  | [] => s
  | .eval _ none _ :: h => Now.after W s h
  | .eval _ (some a) _ :: h => Now.after W { s with x := W.setValues s.x a } h
  | .setIntensity r :: h => Now.after W { s with intensity := r } h
  | .setSharpness r :: h => Now.after W { s with sharpness := r } h

/-- The penalty of one case: none at intensity zero. -/
noncomputable def penalty (W : World Θ A) (s : Now Θ) : ℝ := if s.intensity = 0 then 0 else W.pen s.intensity s.sharpness s.x

/-- Its gradient. -/
noncomputable def dPenalty (W : World Θ A) (s : Now Θ) (p : Nat) : ℝ := if s.intensity = 0 then 0 else W.dpen s.intensity s.sharpness s.x p

/-- The weighted gradient of a case's log likelihood. -/
def grad (v : Vals) (p : Nat) : ℝ := v.wt * (v.chosen.map (fun a => a.1 * a.2 p)).sum

/-- The weighted sum of outer products of a case. -/
def outer (v : Vals) (p q : Nat) : ℝ := v.wt * (v.chosen.map (fun a => a.1 * (a.2 p * a.2 q))).sum

/-- The log likelihood of the cases `is`. -/
noncomputable def ll (W : World Θ A) (s : Now Θ) (is : List Int) : ℝ := W.wn * (is.map (fun i => (W.vals s.x i).ll + penalty W s)).sum

/-- Its gradient. -/
noncomputable def dll (W : World Θ A) (s : Now Θ) (is : List Int) (p : Nat) : ℝ :=
  W.wn * (is.map (fun i => grad (W.vals s.x i) p + dPenalty W s p)).sum

/-- The BHHH matrix: at intensity zero the weighted outer products, otherwise the outer products of the gradients with penalty. -/
noncomputable def bhhh (W : World Θ A) (s : Now Θ) (is : List Int) (p q : Nat) : ℝ :=
  W.wn * (is.map (fun i =>
    if s.intensity = 0 then outer (W.vals s.x i) p q
    else (grad (W.vals s.x i) p + dPenalty W s p) * (grad (W.vals s.x i) q + dPenalty W s q))).sum

/-- What each method returns. -/
noncomputable def result (W : World Θ A) (root : Nat) (s : Now Θ) (m : Method) (is : List Int) : Out :=
  match m with
  | .loglike => .num (ll W s is)
  | .dLoglike => .vec (dll W s is)
  | .loglikeCasewise => .nums (is.map (fun i => ll W s [i]))
  | .dLoglikeCasewise => .vecs (is.map (fun i => dll W s [i]))
  | .bhhh => .mat (bhhh W s is)
  | .probability => .vecs (is.map (fun i => (W.vals s.x i).prob))
  | .utility => .vecs (is.map (fun i => (W.vals s.x i).util))
  | .quantity => .vecs (is.map (fun i => (W.vals s.x i).quantity))
  | .logsums => .nums (is.map (fun i => (W.vals s.x i).util root))
  | .loglike2 => .two (ll W s is) (dll W s is)
  | .loglike2Bhhh => .three (ll W s is) (dll W s is) (bhhh W s is) (penalty W s)

end Larch.Runner.Spec
