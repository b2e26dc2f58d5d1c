import Mathlib.Analysis.SpecialFunctions.Log.Basic
import Mathlib.Analysis.SpecialFunctions.Exp

/-!
# Extended reals with NaN

The numeric carrier of the kernel model.  It models IEEE floating-point *special values* (infinities
and NaN, as they are used by `larch/numba/model.py`, which is compiled with `error_model='numpy'`) over
exact real arithmetic.  Simplifications: no rounding, no overflow of finite values, no signed zero, and
the freedom `fastmath=True` gives to the compiler is not modelled.
-/

namespace Larch

/-- A float: a finite real, an infinity, or NaN. -/
inductive X where
  | fin (r : ℝ)
  | ninf
  | pinf
  | nan

namespace X

instance : Inhabited X := ⟨nan⟩
instance : Zero X := ⟨fin 0⟩
instance : One X := ⟨fin 1⟩

/-- IEEE addition. -/
noncomputable def add : X → X → X
  | fin a, fin b => fin (a + b)
  | nan, _ => nan
  | _, nan => nan
  | pinf, ninf => nan
  | ninf, pinf => nan
  | pinf, _ => pinf
  | _, pinf => pinf
  | ninf, _ => ninf
  | _, ninf => ninf

noncomputable instance : Add X := ⟨add⟩

/-- IEEE negation. -/
noncomputable def neg : X → X
  | fin a => fin (-a)
  | nan => nan
  | pinf => ninf
  | ninf => pinf

noncomputable instance : Neg X := ⟨neg⟩
noncomputable instance : Sub X := ⟨fun a b => a + -b⟩

/-- `±∞` scaled by the sign of a real (`0 * ∞ = nan`). -/
noncomputable def infSign (r : ℝ) (pos neg : X) : X :=
  if 0 < r then pos else if r < 0 then neg else nan

/-- IEEE multiplication. -/
noncomputable def mul : X → X → X
  | fin a, fin b => fin (a * b)
  | nan, _ => nan
  | _, nan => nan
  | fin a, pinf => infSign a pinf ninf
  | fin a, ninf => infSign a ninf pinf
  | pinf, fin a => infSign a pinf ninf
  | ninf, fin a => infSign a ninf pinf
  | pinf, pinf => pinf
  | ninf, ninf => pinf
  | pinf, ninf => ninf
  | ninf, pinf => ninf

noncomputable instance : Mul X := ⟨mul⟩

/-- IEEE division (`error_model='numpy'`: `x/0 = ±∞`, `0/0 = nan`; zero is taken as `+0`). -/
noncomputable def div : X → X → X
  | nan, _ => nan
  | _, nan => nan
  | fin a, fin b => if b = 0 then infSign a pinf ninf else fin (a / b)
  | fin _, pinf => fin 0
  | fin _, ninf => fin 0
  | pinf, fin b => if b < 0 then ninf else pinf
  | ninf, fin b => if b < 0 then pinf else ninf
  | pinf, pinf => nan
  | pinf, ninf => nan
  | ninf, pinf => nan
  | ninf, ninf => nan

noncomputable instance : Div X := ⟨div⟩

/-- `np.exp` -/
noncomputable def exp : X → X
  | fin a => fin (Real.exp a)
  | ninf => fin 0
  | pinf => pinf
  | nan => nan

/-- `np.log` -/
noncomputable def log : X → X
  | fin a => if 0 < a then fin (Real.log a) else if a = 0 then ninf else nan
  | ninf => nan
  | pinf => pinf
  | nan => nan

/-- `a > b` (false when either is NaN). -/
def gt : X → X → Prop
  | fin a, fin b => b < a
  | fin _, ninf => True
  | pinf, ninf => True
  | pinf, fin _ => True
  | _, _ => False

/-- Is the value exactly `-inf`: `np.isinf(x) and x < 0` -/
def isNinf : X → Prop
  | ninf => True
  | _ => False

noncomputable instance (a b : X) : Decidable (gt a b) := Classical.propDecidable _
noncomputable instance (a : X) : Decidable (isNinf a) := Classical.propDecidable _

/-- The real number of a finite value (0 otherwise); used only in specifications. -/
def toReal : X → ℝ
  | fin a => a
  | _ => 0

@[simp] theorem toReal_fin (a : ℝ) : toReal (fin a) = a := rfl
@[simp] theorem fin_add (a b : ℝ) : fin a + fin b = fin (a + b) := rfl
@[simp] theorem fin_neg (a : ℝ) : -fin a = fin (-a) := rfl
@[simp] theorem fin_sub (a b : ℝ) : fin a - fin b = fin (a - b) := by
  show fin (a + -b) = _; rw [sub_eq_add_neg]
@[simp] theorem fin_mul (a b : ℝ) : fin a * fin b = fin (a * b) := rfl
theorem fin_div {a b : ℝ} (h : b ≠ 0) : fin a / fin b = fin (a / b) := by
  show div _ _ = _; simp [div, h]
@[simp] theorem exp_fin (a : ℝ) : exp (fin a) = fin (Real.exp a) := rfl
@[simp] theorem exp_ninf : exp ninf = fin 0 := rfl
theorem log_fin {a : ℝ} (h : 0 < a) : log (fin a) = fin (Real.log a) := by simp [log, h]
@[simp] theorem log_zero : log (fin 0) = ninf := by simp [log]
theorem zero_def : (0 : X) = fin 0 := rfl
theorem one_def : (1 : X) = fin 1 := rfl
@[simp] theorem fin_gt_ninf (a : ℝ) : gt (fin a) ninf := trivial
@[simp] theorem not_ninf_gt (a : X) : ¬ gt ninf a := by cases a <;> simp [gt]
@[simp] theorem fin_gt_fin (a b : ℝ) : gt (fin a) (fin b) ↔ b < a := Iff.rfl
@[simp] theorem isNinf_ninf : isNinf ninf := trivial
@[simp] theorem not_isNinf_fin (a : ℝ) : ¬ isNinf (fin a) := id
@[simp] theorem ninf_add_ninf : ninf + ninf = ninf := rfl
@[simp] theorem ninf_add_fin (a : ℝ) : ninf + fin a = ninf := rfl
@[simp] theorem fin_add_ninf (a : ℝ) : fin a + ninf = ninf := rfl
theorem fin_inj {a b : ℝ} : fin a = fin b ↔ a = b := ⟨fun h => by cases h; rfl, fun h => by rw [h]⟩

end X

end Larch
