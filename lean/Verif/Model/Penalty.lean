import Verif.Model.Constraints

/-!
# Soft penalties (`larch/numba/model.py:670-733, 1304-1331`, `larch/model/constraints.py:137-185, 263-299`)

`bounds_penalty` and the `as_soft_penalty` functions of ratio and ordering constraints.  Parameter values and settings are reals,
bounds are `X`.  A sharpness of zero raises `ZeroDivisionError` in the code and is excluded by the theorems.
-/

namespace Larch.Pen

/-- `softplus`, `larch/numba/model.py:670-678`. -/
noncomputable def softplus (i : X) (s : ℝ) : X :=
  if X.gt i (.fin (10 / s)) then i else X.log (1 + X.exp (i * .fin s)) / .fin s

/-- `d_softplus`, `larch/numba/model.py:681-689`. -/
noncomputable def dSoftplus (i : X) (s : ℝ) : X :=
  if X.gt i (.fin (1000 / s)) then 1 else 1 / (1 + X.exp (-i * .fin s))

/-- The truth value of `if penalty:`, negated. -/
def isZero : X → Prop
  | .fin r => r = 0
  | _ => False

noncomputable instance (a : X) : Decidable (isZero a) := Classical.propDecidable _

/-- `low_penalty`, `numba/model.py:720-721`. -/
noncomputable def lowPenalty (s : ℝ) (x : ℝ) (lb : X) : X := -softplus (lb - .fin x) s

/-- `high_penalty`, `numba/model.py:722-723`. -/
noncomputable def highPenalty (s : ℝ) (x : ℝ) (ub : X) : X := -softplus (.fin x - ub) s

/-- The increment of `penalty` for one parameter, `numba/model.py:724`. -/
noncomputable def penaltyOne (int s : ℝ) (x : ℝ) (lb ub : X) : X := (lowPenalty s x lb + highPenalty s x ub) * .fin int

/-- `d_penalty[i]`, `numba/model.py:717, 725-728`. -/
noncomputable def dPenaltyOne (int s : ℝ) (x : ℝ) (lb ub : X) : X :=
  let d := if isZero (lowPenalty s x lb) then (0 : X) else 0 + dSoftplus (lb - .fin x) s * .fin int
  if isZero (highPenalty s x ub) then d else d - dSoftplus (.fin x - ub) s * .fin int

/-- `penalty[0]`, `numba/model.py:716-724`, for `n` parameters. -/
noncomputable def boundsPenalty (int s : ℝ) (lb ub : Nat → X) : Nat → (Nat → ℝ) → X
  | 0, _ => 0
  | n + 1, x => boundsPenalty int s lb ub n x + penaltyOne int s (x n) (lb n) (ub n)

/-- `d_penalty`, `numba/model.py:717-728`. -/
noncomputable def dBoundsPenalty (int s : ℝ) (lb ub : Nat → X) (x : Nat → ℝ) (i : Nat) : X := dPenaltyOne int s (x i) (lb i) (ub i)

/-- The penalty function of `OrderingBound.as_soft_penalty`, `constraints.py:274-275`. -/
noncomputable def orderingPenalty (L : Con.OrderingL) (int s : ℝ) (x : Nat → ℝ) : X :=
  -softplus (.fin (-(x L.iMore - x L.iLess) * L.scale * int)) s

/-- The derivative function of `OrderingBound.as_soft_penalty`, `constraints.py:280-285`. -/
noncomputable def dOrderingPenalty (L : Con.OrderingL) (int s : ℝ) (x : Nat → ℝ) : Nat → X :=
  let partial_ := dSoftplus (.fin (-(x L.iMore - x L.iLess))) (s * L.scale * int) * .fin L.scale * .fin int
  Function.update (Function.update (fun _ => 0) L.iMore partial_) L.iLess (-partial_)

/-- The penalty function of `RatioBound.as_soft_penalty`, `constraints.py:150-153`; `scale` is `self.scale`. -/
noncomputable def ratioPenalty (L : Con.RatioL) (scale int s : ℝ) (x : Nat → ℝ) : X :=
  -softplus (.fin (-(min (L.minFun x) (L.maxFun x)) * scale * int)) s

/-- The derivative function of `RatioBound.as_soft_penalty`, `constraints.py:158-169`. -/
noncomputable def dRatioPenalty (L : Con.RatioL) (scale int s : ℝ) (x : Nat → ℝ) : Nat → X :=
  let partial_ := dSoftplus (.fin (-(min (L.minFun x) (L.maxFun x)))) (s * scale * int) * .fin scale * .fin int
  if L.minFun x < L.maxFun x then
    Function.update (Function.update (fun _ => 0) L.iNum (.fin L.cminNum * partial_)) L.iDen (.fin L.cminDen * partial_)
  else
    Function.update (Function.update (fun _ => 0) L.iNum (.fin L.cmaxNum * partial_)) L.iDen (.fin L.cmaxDen * partial_)

/-- The classes of constraints, `constraints.py:39, 203, 313`. -/
inductive Kind where
  | ratio | ordering | fixed
deriving DecidableEq

/-- `[c.as_soft_penalty() for c in self.constraints]` in `unmangle`, `numba/model.py:1157-1158`; `none` for the `AttributeError` of a class
that has no such method (the base class and `FixedBound`, `constraints.py:8-37, 313-390`, define none). -/
def constraintFuncs : List Kind → Option (List Kind)
  | [] => some []
  | .fixed :: _ => none
  | c :: rest => (constraintFuncs rest).map (c :: ·)

/-- `loglike` with penalties on, `numba/model.py:1398-1401, 1477`: `ll` are the cases' log likelihoods. -/
noncomputable def penalised (wn pen : ℝ) (ll : List ℝ) : ℝ := (ll.map (fun l => l + pen)).sum * wn

/-- One entry of `d_loglike` with penalties on, `numba/model.py:1402, 1500`. -/
noncomputable def dPenalised (wn dpen : ℝ) (dll : List ℝ) : ℝ := (dll.map (fun l => l + dpen)).sum * wn

end Larch.Pen
