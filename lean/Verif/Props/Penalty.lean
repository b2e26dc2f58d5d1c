import Verif.Model.Penalty
import Verif.Spec.Penalty
import Verif.Props.Constraints
import Mathlib.Analysis.SpecialFunctions.ExpDeriv
import Mathlib.Analysis.SpecialFunctions.Log.Deriv
import Mathlib.Analysis.Calculus.Deriv.Add
import Mathlib.Analysis.Calculus.Deriv.Mul
import Mathlib.Analysis.Calculus.Deriv.Comp
import Mathlib.Analysis.Calculus.Deriv.Inv

/-!
# C44, C63: soft penalties
-/

namespace Larch.Props

open Larch Larch.Pen

/-! ## The real functions behind -/

noncomputable def sp (s i : ℝ) : ℝ := if 10 / s < i then i else Real.log (1 + Real.exp (i * s)) / s
noncomputable def dsp (s i : ℝ) : ℝ := if 1000 / s < i then 1 else 1 / (1 + Real.exp (-i * s))

theorem softplus_fin {s : ℝ} (hs : 0 < s) (i : ℝ) : softplus (.fin i) s = .fin (sp s i) := by
  unfold softplus sp
  simp only [X.fin_gt_fin, X.fin_mul, X.exp_fin, X.one_def, X.fin_add]
  split
  · rfl
  · rw [X.log_fin (by positivity), X.fin_div hs.ne']

theorem softplus_ninf {s : ℝ} (hs : 0 < s) : softplus .ninf s = .fin 0 := by
  unfold softplus
  have : (X.ninf * X.fin s) = X.ninf := by
    show X.mul _ _ = _; simp [X.mul, X.infSign, hs]
  rw [if_neg (X.not_ninf_gt _), this, X.exp_ninf, X.one_def, X.fin_add, X.log_fin (by norm_num), X.fin_div hs.ne']
  simp

theorem dSoftplus_fin {s : ℝ} (i : ℝ) : dSoftplus (.fin i) s = .fin (dsp s i) := by
  unfold dSoftplus dsp
  simp only [X.fin_gt_fin, X.fin_neg, X.fin_mul, X.exp_fin, X.one_def, X.fin_add]
  split
  · rfl
  · rw [X.fin_div (by positivity)]

theorem sp_pos {s : ℝ} (hs : 0 < s) (i : ℝ) : 0 < sp s i := by
  unfold sp
  split
  · rename_i h; exact lt_trans (by positivity) h
  · apply div_pos _ hs
    apply Real.log_pos
    linarith [Real.exp_pos (i * s)]

theorem sp_lower {s : ℝ} (hs : 0 < s) (i : ℝ) : max 0 i ≤ sp s i := by
  apply max_le (sp_pos hs i).le
  unfold sp
  split
  · exact le_refl _
  · rw [le_div_iff₀ hs, Real.le_log_iff_exp_le (by positivity)]
    linarith

theorem sp_upper {s : ℝ} (hs : 0 < s) (i : ℝ) : sp s i ≤ max 0 i + Real.log 2 / s := by
  have hl : 0 < Real.log 2 := Real.log_pos (by norm_num)
  unfold sp
  split
  · have : 0 < Real.log 2 / s := by positivity
    linarith [le_max_right 0 i]
  · rw [div_le_iff₀ hs, add_mul, div_mul_cancel₀ _ hs.ne', Real.log_le_iff_le_exp (by positivity), Real.exp_add,
      Real.exp_log (by norm_num)]
    have h1 : 1 ≤ Real.exp (max 0 i * s) := Real.one_le_exp (by positivity)
    have h2 : Real.exp (i * s) ≤ Real.exp (max 0 i * s) :=
      Real.exp_le_exp.2 (mul_le_mul_of_nonneg_right (le_max_right 0 i) hs.le)
    linarith

theorem dsp_pos (s i : ℝ) : 0 < dsp s i := by unfold dsp; split <;> positivity

theorem dsp_le_one (s i : ℝ) : dsp s i ≤ 1 := by
  unfold dsp
  split
  · exact le_refl _
  · rw [div_le_one (by positivity)]; linarith [Real.exp_pos (-i * s)]

theorem dsp_le_half {s i : ℝ} (hs : 0 < s) (hi : i ≤ 0) : dsp s i ≤ 1 / 2 := by
  unfold dsp
  rw [if_neg (by have : 0 < 1000 / s := by positivity
                 linarith)]
  apply one_div_le_one_div_of_le (by norm_num)
  have : 1 ≤ Real.exp (-i * s) := Real.one_le_exp (mul_nonneg (by linarith) hs.le)
  linarith

theorem half_le_dsp {s i : ℝ} (hs : 0 < s) (hi : 0 ≤ i) : 1 / 2 ≤ dsp s i := by
  unfold dsp
  split
  · norm_num
  · apply one_div_le_one_div_of_le (by positivity)
    have : Real.exp (-i * s) ≤ 1 := Real.exp_le_one_iff.2 (by nlinarith)
    linarith

/-- Below the cut the reported derivative is exact. -/
theorem hasDeriv_sp_lt {s i : ℝ} (hs : 0 < s) (h : i < 10 / s) : HasDerivAt (sp s) (dsp s i) i := by
  have hd : dsp s i = Real.exp (i * s) * s / (1 + Real.exp (i * s)) / s := by
    unfold dsp
    rw [if_neg (by have : 10 / s < 1000 / s := by gcongr; norm_num
                   linarith), neg_mul, Real.exp_neg]
    have := Real.exp_pos (i * s)
    field_simp
    ring
  rw [hd]
  have h1 : HasDerivAt (fun t : ℝ => Real.log (1 + Real.exp (t * s)) / s) (Real.exp (i * s) * s / (1 + Real.exp (i * s)) / s) i := by
    have : HasDerivAt (fun t : ℝ => t * s) s i := by simpa using (hasDerivAt_id i).mul_const s
    exact ((this.exp.const_add 1).log (by positivity)).div_const s
  refine h1.congr_of_eventuallyEq ?_
  filter_upwards [gt_mem_nhds h] with t ht
  simp [sp, not_lt.2 ht.le]

/-- Above the cut the function is the identity. -/
theorem hasDeriv_sp_gt {s i : ℝ} (h : 10 / s < i) : HasDerivAt (sp s) 1 i := by
  refine (hasDerivAt_id i).congr_of_eventuallyEq ?_
  filter_upwards [lt_mem_nhds h] with t ht
  simp [sp, ht]

theorem hasDeriv_sp {s i : ℝ} (hs : 0 < s) (h : Clear s i) : HasDerivAt (sp s) (dsp s i) i := by
  rcases h with h | h
  · exact hasDeriv_sp_lt hs h
  · have h2 : 10 / s < 1000 / s := by gcongr; norm_num
    have : dsp s i = 1 := by simp [dsp, h]
    rw [this]
    exact hasDeriv_sp_gt (h2.trans h)

/-! ## One parameter -/

/-- The penalty terms of the two bounds as reals. -/
noncomputable def lo (s x : ℝ) : X → ℝ
  | .fin l => sp s (l - x)
  | _ => 0
noncomputable def hi (s x : ℝ) : X → ℝ
  | .fin u => sp s (x - u)
  | _ => 0
noncomputable def dlo (s x : ℝ) : X → ℝ
  | .fin l => dsp s (l - x)
  | _ => 0
noncomputable def dhi (s x : ℝ) : X → ℝ
  | .fin u => dsp s (x - u)
  | _ => 0

theorem lowPenalty_eq {s : ℝ} (hs : 0 < s) (x : ℝ) {lb ub : X} (h : BoundsOk lb ub) : lowPenalty s x lb = .fin (-lo s x lb) := by
  have h1 : X.ninf - X.fin x = X.ninf := rfl
  cases h <;> simp [lowPenalty, lo, h1, softplus_ninf hs, softplus_fin hs]

theorem highPenalty_eq {s : ℝ} (hs : 0 < s) (x : ℝ) {lb ub : X} (h : BoundsOk lb ub) : highPenalty s x ub = .fin (-hi s x ub) := by
  have h1 : X.fin x - X.pinf = X.ninf := rfl
  cases h <;> simp [highPenalty, hi, h1, softplus_ninf hs, softplus_fin hs]

theorem penaltyOne_eq {s : ℝ} (hs : 0 < s) (int x : ℝ) {lb ub : X} (h : BoundsOk lb ub) :
    penaltyOne int s x lb ub = .fin (-(lo s x lb + hi s x ub) * int) := by
  rw [penaltyOne, lowPenalty_eq hs x h, highPenalty_eq hs x h, X.fin_add, X.fin_mul]
  congr 1; ring

theorem dPenaltyOne_eq {s : ℝ} (hs : 0 < s) (int x : ℝ) {lb ub : X} (h : BoundsOk lb ub) :
    dPenaltyOne int s x lb ub = .fin ((dlo s x lb - dhi s x ub) * int) := by
  unfold dPenaltyOne
  rw [lowPenalty_eq hs x h, highPenalty_eq hs x h]
  have hp := fun i => (sp_pos hs i).ne'
  cases h <;> simp [isZero, lo, hi, dlo, dhi, hp, dSoftplus_fin, X.zero_def]; ring

theorem lo_bounds {s : ℝ} (hs : 0 < s) (x : ℝ) (lb : X) : below x lb ≤ lo s x lb ∧ lo s x lb ≤ below x lb + Real.log 2 / s := by
  have hl : 0 < Real.log 2 / s := div_pos (Real.log_pos (by norm_num)) hs
  cases lb with
  | fin l => exact ⟨sp_lower hs _, sp_upper hs _⟩
  | _ => simp only [lo, below]; constructor <;> linarith

theorem hi_bounds {s : ℝ} (hs : 0 < s) (x : ℝ) (ub : X) : above x ub ≤ hi s x ub ∧ hi s x ub ≤ above x ub + Real.log 2 / s := by
  have hl : 0 < Real.log 2 / s := div_pos (Real.log_pos (by norm_num)) hs
  cases ub with
  | fin l => exact ⟨sp_lower hs _, sp_upper hs _⟩
  | _ => simp only [hi, above]; constructor <;> linarith

theorem boundsPenalty_eq {s : ℝ} (hs : 0 < s) (int : ℝ) {lb ub : Nat → X} (h : ∀ i, BoundsOk (lb i) (ub i)) (n : Nat) (x : Nat → ℝ) :
    boundsPenalty int s lb ub n x = .fin (∑ i ∈ Finset.range n, -(lo s (x i) (lb i) + hi s (x i) (ub i)) * int) := by
  induction n with
  | zero => simp [boundsPenalty, X.zero_def]
  | succ n ih => rw [boundsPenalty, ih, penaltyOne_eq hs int (x n) (h n), X.fin_add, Finset.sum_range_succ]

/-! ## C44 -/

/-- C44: for any number of parameters, with any usable bounds and values, the penalty is a finite number that is not positive. -/
theorem C44_nonpositive (int s : ℝ) (hint : 0 ≤ int) (hs : 0 < s) (lb ub : Nat → X) (h : ∀ i, BoundsOk (lb i) (ub i)) (n : Nat)
    (x : Nat → ℝ) : ∃ p, boundsPenalty int s lb ub n x = .fin p ∧ p ≤ 0 := by
  refine ⟨_, boundsPenalty_eq hs int h n x, Finset.sum_nonpos (fun i _ => ?_)⟩
  have h1 := (lo_bounds hs (x i) (lb i)).1
  have h2 := (hi_bounds hs (x i) (ub i)).1
  have h3 : 0 ≤ below (x i) (lb i) := by unfold below; split <;> simp
  have h4 : 0 ≤ above (x i) (ub i) := by unfold above; split <;> simp
  nlinarith

/-- C44: the penalty is minus the intensity times the total violation of the bounds, up to `2 n log 2 · intensity / sharpness`. -/
theorem C44_approximates_violation (int s : ℝ) (hint : 0 ≤ int) (hs : 0 < s) (lb ub : Nat → X) (h : ∀ i, BoundsOk (lb i) (ub i))
    (n : Nat) (x : Nat → ℝ) : ∃ p, boundsPenalty int s lb ub n x = .fin p ∧
      |p + int * ∑ i ∈ Finset.range n, (below (x i) (lb i) + above (x i) (ub i))| ≤ 2 * n * Real.log 2 * int / s := by
  refine ⟨_, boundsPenalty_eq hs int h n x, ?_⟩
  rw [Finset.mul_sum, ← Finset.sum_add_distrib]
  refine (Finset.abs_sum_le_sum_abs _ _).trans ?_
  have : ∀ i ∈ Finset.range n, |(-(lo s (x i) (lb i) + hi s (x i) (ub i)) * int + int * (below (x i) (lb i) + above (x i) (ub i)))| ≤
      2 * Real.log 2 * int / s := by
    intro i _
    obtain ⟨a1, a2⟩ := lo_bounds hs (x i) (lb i)
    obtain ⟨b1, b2⟩ := hi_bounds hs (x i) (ub i)
    have e : -(lo s (x i) (lb i) + hi s (x i) (ub i)) * int + int * (below (x i) (lb i) + above (x i) (ub i)) =
      -(((lo s (x i) (lb i) - below (x i) (lb i)) + (hi s (x i) (ub i) - above (x i) (ub i))) * int) := by ring
    rw [e, abs_neg, abs_of_nonneg (mul_nonneg (by linarith) hint)]
    have : 2 * Real.log 2 * int / s = (2 * (Real.log 2 / s)) * int := by ring
    rw [this]
    exact mul_le_mul_of_nonneg_right (by linarith) hint
  refine (Finset.sum_le_sum this).trans (le_of_eq ?_)
  rw [Finset.sum_const, Finset.card_range, nsmul_eq_mul]
  ring

example : BoundsOk (.fin 0) (.fin 1) ∧ BoundsOk .ninf (.fin 1) ∧ (0 : ℝ) < 10 := ⟨.both 0 1 (by norm_num), .high 1, by norm_num⟩

/-- Strict growth of the sum of the two log terms beyond the larger of the two bounds. -/
theorem log_terms_lt {s l u x x' : ℝ} (hs : 0 < s) (hlu : l ≤ u) (h1 : u ≤ x) (h2 : x < x') :
    Real.log (1 + Real.exp ((l - x) * s)) + Real.log (1 + Real.exp ((x - u) * s)) <
      Real.log (1 + Real.exp ((l - x') * s)) + Real.log (1 + Real.exp ((x' - u) * s)) := by
  rw [← Real.log_mul (by positivity) (by positivity), ← Real.log_mul (by positivity) (by positivity)]
  apply Real.log_lt_log (by positivity)
  have e : ∀ y, Real.exp ((l - y) * s) = Real.exp ((l - u) * s) / Real.exp ((y - u) * s) := by
    intro y; rw [← Real.exp_sub]; congr 1; ring
  rw [e x, e x']
  have ha : Real.exp ((l - u) * s) ≤ 1 := Real.exp_le_one_iff.2 (by nlinarith)
  have ha0 := Real.exp_pos ((l - u) * s)
  have ht : 1 ≤ Real.exp ((x - u) * s) := Real.one_le_exp (mul_nonneg (by linarith) hs.le)
  have htt : Real.exp ((x - u) * s) < Real.exp ((x' - u) * s) := Real.exp_lt_exp.2 (mul_lt_mul_of_pos_right (by linarith) hs)
  generalize Real.exp ((l - u) * s) = a at *
  generalize Real.exp ((x - u) * s) = t at *
  generalize Real.exp ((x' - u) * s) = t' at *
  have htp : 0 < t := by linarith
  have htp' : 0 < t' := by linarith
  have key : a / t - a / t' < t' - t := by
    rw [div_sub_div _ _ htp.ne' htp'.ne', div_lt_iff₀ (by positivity)]
    have : 1 < t * t' := by nlinarith
    nlinarith
  have e1 : (1 + a / t) * (1 + t) = 1 + a + t + a / t := by field_simp; ring
  have e2 : (1 + a / t') * (1 + t') = 1 + a + t' + a / t' := by field_simp; ring
  rw [e1, e2]
  linarith

theorem sp_le_of {s i : ℝ} (h : i ≤ 10 / s) : sp s i = Real.log (1 + Real.exp (i * s)) / s := by simp [sp, not_lt.2 h]

theorem lo_hi_lt {s x x' : ℝ} (hs : 0 < s) {lb : X} {u : ℝ} (h : BoundsOk lb (.fin u)) (h1 : u ≤ x) (h2 : x < x')
    (hw : x' - u ≤ 10 / s ∨ 10 / s < x - u) : lo s x lb + hi s x (.fin u) < lo s x' lb + hi s x' (.fin u) := by
  have hc : (0 : ℝ) < 10 / s := by positivity
  cases h with
  | high =>
    simp only [lo, hi, zero_add]
    rcases hw with hw | hw
    · rw [sp_le_of hw, sp_le_of (by linarith)]
      gcongr
    · simp only [sp]; rw [if_pos hw, if_pos (by linarith)]; linarith
  | both l _ hlu =>
    simp only [lo, hi]
    rw [sp_le_of (i := l - x) (by linarith), sp_le_of (i := l - x') (by linarith)]
    rcases hw with hw | hw
    · rw [sp_le_of hw, sp_le_of (i := x - u) (by linarith), ← add_div, ← add_div]
      exact div_lt_div_of_pos_right (log_terms_lt hs hlu h1 h2) hs
    · have e1 : sp s (x - u) = x - u := by simp [sp, hw]
      have e2 : sp s (x' - u) = x' - u := by simp only [sp]; rw [if_pos (by linarith)]
      rw [e1, e2]
      have hlt := log_terms_lt hs hlu h1 h2
      have hle : Real.log (1 + Real.exp ((l - x) * s)) - Real.log (1 + Real.exp ((l - x') * s)) < (x' - x) * s := by
        rw [← Real.log_div (by positivity) (by positivity), Real.log_lt_iff_lt_exp (by positivity), div_lt_iff₀ (by positivity)]
        have e : Real.exp ((l - x) * s) = Real.exp ((x' - x) * s) * Real.exp ((l - x') * s) := by rw [← Real.exp_add]; congr 1; ring
        have : 1 < Real.exp ((x' - x) * s) := Real.one_lt_exp_iff.2 (mul_pos (by linarith) hs)
        rw [e]; linarith
      have : (Real.log (1 + Real.exp ((l - x) * s)) - Real.log (1 + Real.exp ((l - x') * s))) / s < x' - x := by
        rw [div_lt_iff₀ hs]; exact hle
      rw [sub_div] at this
      linarith

/-- C44: beyond the upper bound the penalty gets worse as the violation grows, on either side of the cut at `10 / sharpness`.
(Missing: across the cut it may improve, `C44_fails_decreasing`.) -/
theorem C44_decreasing_partial (int s : ℝ) (hint : 0 < int) (hs : 0 < s) (lb : X) (u : ℝ) (h : BoundsOk lb (.fin u)) (x x' : ℝ)
    (h1 : u ≤ x) (h2 : x < x') (hw : x' - u ≤ 10 / s ∨ 10 / s < x - u) :
    X.gt (penaltyOne int s x lb (.fin u)) (penaltyOne int s x' lb (.fin u)) := by
  rw [penaltyOne_eq hs int x h, penaltyOne_eq hs int x' h, X.fin_gt_fin]
  have := lo_hi_lt hs h h1 h2 hw
  nlinarith

/-- The penalty is symmetric under reflection. -/
theorem penaltyOne_reflect {s : ℝ} (hs : 0 < s) (int x : ℝ) (l : ℝ) (ub : X) (h : BoundsOk (.fin l) ub) :
    penaltyOne int s x (.fin l) ub = penaltyOne int s (-x) (-ub) (.fin (-l)) ∧ BoundsOk (-ub) (.fin (-l)) := by
  have h' : BoundsOk (-ub) (.fin (-l)) := by
    cases h with
    | low => exact .high _
    | both _ u hlu => exact .both (-u) (-l) (by linarith)
  refine ⟨?_, h'⟩
  rw [penaltyOne_eq hs int x h, penaltyOne_eq hs int (-x) h']
  congr 1
  cases h with
  | low => 
    have : (-X.pinf) = X.ninf := rfl
    rw [this]
    simp only [lo, hi]; ring_nf
  | both _ u hlu => 
    rw [X.fin_neg]
    simp only [lo, hi]; ring_nf

/-- C44, lower bound. -/
theorem C44_decreasing_low_partial (int s : ℝ) (hint : 0 < int) (hs : 0 < s) (l : ℝ) (ub : X) (h : BoundsOk (.fin l) ub) (x x' : ℝ)
    (h1 : x ≤ l) (h2 : x' < x) (hw : l - x' ≤ 10 / s ∨ 10 / s < l - x) :
    X.gt (penaltyOne int s x (.fin l) ub) (penaltyOne int s x' (.fin l) ub) := by
  obtain ⟨e1, h'⟩ := penaltyOne_reflect hs int x l ub h
  obtain ⟨e2, -⟩ := penaltyOne_reflect hs int x' l ub h
  rw [e1, e2]
  refine C44_decreasing_partial int s hint hs _ (-l) h' (-x) (-x') (by linarith) (by linarith) ?_
  rcases hw with hw | hw
  · left; linarith
  · right; linarith

example : BoundsOk (.fin 0) (.fin 1) ∧ (1 : ℝ) ≤ 1.2 ∧ (1.2 : ℝ) < 1.5 ∧ (1.5 - 1 : ℝ) ≤ 10 / 10 := by
  refine ⟨.both 0 1 (by norm_num), ?_, ?_, ?_⟩ <;> norm_num

/-- C44 fails: for every intensity, sharpness and upper bound there are two values beyond the bound, of which the worse one is
penalised less. -/
theorem C44_fails_decreasing (int s u : ℝ) (hint : 0 < int) (hs : 0 < s) :
    ∃ x x', u < x ∧ x < x' ∧ X.gt (penaltyOne int s x' .ninf (.fin u)) (penaltyOne int s x .ninf (.fin u)) := by
  have hpos : 0 < Real.log (1 + Real.exp 10) / s - 10 / s := by
    rw [← sub_div]
    apply div_pos _ hs
    have : Real.log (Real.exp 10) < Real.log (1 + Real.exp 10) := Real.log_lt_log (by positivity) (by linarith)
    rw [Real.log_exp] at this
    linarith
  have hc : (0 : ℝ) < 10 / s := by positivity
  refine ⟨u + 10 / s, u + 10 / s + (Real.log (1 + Real.exp 10) / s - 10 / s) / 2, by linarith, by linarith, ?_⟩
  have hb : BoundsOk .ninf (.fin u) := .high u
  rw [penaltyOne_eq hs int _ hb, penaltyOne_eq hs int _ hb, X.fin_gt_fin]
  simp only [lo, hi, zero_add]
  have e1 : sp s (u + 10 / s - u) = Real.log (1 + Real.exp 10) / s := by
    rw [sp_le_of (by linarith)]
    have : (u + 10 / s - u) * s = 10 := by field_simp; ring
    rw [this]
  have e2 : sp s (u + 10 / s + (Real.log (1 + Real.exp 10) / s - 10 / s) / 2 - u) =
      10 / s + (Real.log (1 + Real.exp 10) / s - 10 / s) / 2 := by
    unfold sp; rw [if_pos (by linarith)]; ring
  rw [e1, e2]
  nlinarith

/-- The derivatives of the two terms. -/
theorem hasDeriv_lo {s x : ℝ} (hs : 0 < s) (lb : X) (h : Clear s (below x lb)) :
    HasDerivAt (fun t => lo s t lb) (-dlo s x lb) x := by
  cases lb with
  | fin l =>
    have hc : Clear s (l - x) := by
      simp only [below] at h
      rcases h with h | h
      · exact Or.inl (lt_of_le_of_lt (le_max_right _ _) h)
      · have : (0 : ℝ) < 1000 / s := by positivity
        right
        rcases max_cases 0 (l - x) with ⟨e, -⟩ | ⟨e, -⟩ <;> rw [e] at h <;> linarith
    have h1 : HasDerivAt (fun t => l - t) (-1) x := by simpa using (hasDerivAt_id x).const_sub l
    have := HasDerivAt.comp x (hasDeriv_sp hs hc) h1
    simpa [lo, dlo, Function.comp_def] using this
  | _ => simpa [lo, dlo] using hasDerivAt_const x (0 : ℝ)

theorem hasDeriv_hi {s x : ℝ} (hs : 0 < s) (ub : X) (h : Clear s (above x ub)) :
    HasDerivAt (fun t => hi s t ub) (dhi s x ub) x := by
  cases ub with
  | fin u =>
    have hc : Clear s (x - u) := by
      simp only [above] at h
      rcases h with h | h
      · exact Or.inl (lt_of_le_of_lt (le_max_right _ _) h)
      · have : (0 : ℝ) < 1000 / s := by positivity
        right
        rcases max_cases 0 (x - u) with ⟨e, -⟩ | ⟨e, -⟩ <;> rw [e] at h <;> linarith
    have h1 : HasDerivAt (fun t => t - u) 1 x := (hasDerivAt_id x).sub_const u
    have := HasDerivAt.comp x (hasDeriv_sp hs hc) h1
    simpa [hi, dhi, Function.comp_def] using this
  | _ => simpa [hi, dhi] using hasDerivAt_const x (0 : ℝ)

/-- C44: entry `k` of the reported derivative is the partial derivative of the penalty of all parameters with respect to parameter
`k`, provided that parameter `k` does not violate its bounds by an amount between `10` and `1000` over the sharpness.  (Missing: that
window, `C44_fails_derivative`; the error there is bounded in `C44_derivative_error`.) -/
theorem C44_derivative_partial (int s : ℝ) (hs : 0 < s) (lb ub : Nat → X) (h : ∀ i, BoundsOk (lb i) (ub i)) (n k : Nat) (hk : k < n)
    (x : Nat → ℝ) (hl : Clear s (below (x k) (lb k))) (hu : Clear s (above (x k) (ub k))) :
    ∃ (f : ℝ → ℝ) (d : ℝ), (∀ t, boundsPenalty int s lb ub n (Function.update x k t) = .fin (f t)) ∧
      dBoundsPenalty int s lb ub x k = .fin d ∧ HasDerivAt f d (x k) := by
  refine ⟨_, _, fun t => boundsPenalty_eq hs int h n _, dPenaltyOne_eq hs int (x k) (h k), ?_⟩
  have key : ∀ i ∈ Finset.range n, HasDerivAt (fun t => -(lo s (Function.update x k t i) (lb i) + hi s (Function.update x k t i) (ub i)) * int)
      (if i = k then (dlo s (x k) (lb k) - dhi s (x k) (ub k)) * int else 0) (x k) := by
    intro i _
    by_cases hik : i = k
    · subst hik
      simp only [Function.update_self, if_true]
      have := (((hasDeriv_lo hs (lb i) hl).add (hasDeriv_hi hs (ub i) hu)).neg).mul_const int
      refine this.congr_deriv ?_
      ring
    · simp only [Function.update_of_ne hik, if_neg hik]
      exact hasDerivAt_const _ _
  have := HasDerivAt.fun_sum key
  refine this.congr_deriv ?_
  rw [Finset.sum_ite_eq' (Finset.range n) k]
  simp [hk]

example : Clear 10 (below 1.2 (.fin 0)) ∧ Clear 10 (above 1.2 (.fin 1)) := by
  constructor <;> left <;> simp only [below, above] <;> norm_num

/-- C44 fails: when the violation is between `10 / sharpness` and `1000 / sharpness` (strictly) the penalty has slope `-intensity` but
the reported derivative is strictly smaller in size. -/
theorem C44_fails_derivative (int s u x : ℝ) (hint : 0 < int) (hs : 0 < s) (h1 : 10 / s < x - u) (h2 : x - u ≤ 1000 / s) :
    ∃ (f : ℝ → ℝ) (d : ℝ), (∀ t, penaltyOne int s t .ninf (.fin u) = .fin (f t)) ∧ dPenaltyOne int s x .ninf (.fin u) = .fin d ∧
      HasDerivAt f (-int) x ∧ -int < d := by
  have hb : BoundsOk .ninf (.fin u) := .high u
  refine ⟨_, _, fun t => penaltyOne_eq hs int t hb, dPenaltyOne_eq hs int x hb, ?_, ?_⟩
  · simp only [lo, hi, zero_add]
    have h1 : HasDerivAt (fun t => sp s (t - u)) 1 x := by
      have := HasDerivAt.comp x (hasDeriv_sp_gt h1) ((hasDerivAt_id x).sub_const u)
      simpa [Function.comp_def] using this
    refine (h1.neg.mul_const int).congr_deriv ?_
    ring
  · simp only [dlo, dhi, zero_sub]
    have : dsp s (x - u) < 1 := by
      unfold dsp; rw [if_neg (not_lt.2 h2), div_lt_one (by positivity)]; linarith [Real.exp_pos (-(x - u) * s)]
    nlinarith

/-- C44: everywhere except at the cut itself the penalty of a parameter is differentiable, and the reported derivative is off by at
most `exp (-10)` times the intensity. -/
theorem C44_derivative_error (int s x : ℝ) (hint : 0 ≤ int) (hs : 0 < s) (lb ub : X) (h : BoundsOk lb ub) (hl : below x lb ≠ 10 / s)
    (hu : above x ub ≠ 10 / s) :
    ∃ (f : ℝ → ℝ) (f' d : ℝ), (∀ t, penaltyOne int s t lb ub = .fin (f t)) ∧ HasDerivAt f f' x ∧ dPenaltyOne int s x lb ub = .fin d ∧
      |d - f'| ≤ int * Real.exp (-10) := by
  have hc : (0 : ℝ) < 10 / s := by positivity
  have he : 0 ≤ int * Real.exp (-10) := by positivity
  have term : ∀ i, i ≠ 10 / s → ∃ e, HasDerivAt (sp s) (dsp s i + e) i ∧ 0 ≤ e ∧ e ≤ Real.exp (-10) ∧ (i ≤ 0 → e = 0) := by
    intro i hi
    by_cases hc1 : i < 10 / s
    · exact ⟨0, by simpa using hasDeriv_sp_lt hs hc1, le_refl _, by positivity, fun _ => rfl⟩
    · have hgt : 10 / s < i := lt_of_le_of_ne (not_lt.1 hc1) (Ne.symm hi)
      refine ⟨1 - dsp s i, by simpa using hasDeriv_sp_gt hgt, by linarith [dsp_le_one s i], ?_, fun h0 => by linarith⟩
      unfold dsp
      split
      · simp; positivity
      · have h10 : 10 ≤ i * s := by rw [div_lt_iff₀ hs] at hgt; exact hgt.le
        have e1 : Real.exp (-i * s) ≤ Real.exp (-10) := Real.exp_le_exp.2 (by linarith)
        have e2 := Real.exp_pos (-i * s)
        have : 1 - 1 / (1 + Real.exp (-i * s)) = Real.exp (-i * s) / (1 + Real.exp (-i * s)) := by field_simp; ring
        rw [this, div_le_iff₀ (by positivity)]
        nlinarith [Real.exp_pos (-10 : ℝ)]
  have hne : ∀ y : ℝ, max 0 y ≠ 10 / s → y ≠ 10 / s := by
    rintro y hy rfl; exact hy (max_eq_right hc.le)
  obtain ⟨e1, he1, hd1, hb1⟩ : ∃ e, HasDerivAt (fun t => lo s t lb) (-dlo s x lb - e) x ∧ 0 ≤ e ∧
      (e ≤ Real.exp (-10) ∧ ((∀ l, lb = .fin l → l - x ≤ 0) → e = 0)) := by
    cases lb with
    | fin l =>
      obtain ⟨e, a, b, c, d⟩ := term (l - x) (hne _ hl)
      refine ⟨e, ?_, b, c, fun hh => d (hh l rfl)⟩
      have h1 : HasDerivAt (fun t => l - t) (-1) x := by simpa using (hasDerivAt_id x).const_sub l
      have := HasDerivAt.comp x a h1
      refine (this.congr_deriv ?_)
      simp only [dlo]; ring
    | _ => exact ⟨0, by simpa [lo, dlo] using hasDerivAt_const x (0 : ℝ), le_refl _, by positivity, fun _ => rfl⟩
  obtain ⟨e2, he2, hd2, hb2⟩ : ∃ e, HasDerivAt (fun t => hi s t ub) (dhi s x ub + e) x ∧ 0 ≤ e ∧
      (e ≤ Real.exp (-10) ∧ ((∀ u, ub = .fin u → x - u ≤ 0) → e = 0)) := by
    cases ub with
    | fin u =>
      obtain ⟨e, a, b, c, d⟩ := term (x - u) (hne _ hu)
      refine ⟨e, ?_, b, c, fun hh => d (hh u rfl)⟩
      have := HasDerivAt.comp x a ((hasDerivAt_id x).sub_const u)
      refine (this.congr_deriv ?_)
      simp only [dhi]; ring
    | _ => exact ⟨0, by simpa [hi, dhi] using hasDerivAt_const x (0 : ℝ), le_refl _, by positivity, fun _ => rfl⟩
  refine ⟨_, _, _, fun t => penaltyOne_eq hs int t h, ((he1.add he2).neg).mul_const int, dPenaltyOne_eq hs int x h, ?_⟩
  have e : (dlo s x lb - dhi s x ub) * int - -(-dlo s x lb - e1 + (dhi s x ub + e2)) * int = (e2 - e1) * int := by ring
  rw [e]
  have hcase : e1 = 0 ∨ e2 = 0 := by
    cases h with
    | none => left; exact hb1.2 (by simp)
    | low l => right; exact hb2.2 (by simp)
    | high u => left; exact hb1.2 (by simp)
    | both l u hlu =>
      by_cases hx : l - x ≤ 0
      · left; exact hb1.2 (by rintro _ ⟨⟩; exact hx)
      · right; exact hb2.2 (by rintro _ ⟨⟩; linarith)
  rw [abs_mul, abs_of_nonneg hint, mul_comm int]
  apply mul_le_mul_of_nonneg_right _ hint
  rcases hcase with h0 | h0 <;> rw [h0]
  · rw [sub_zero, abs_of_nonneg hd2]; exact hb2.1
  · rw [zero_sub, abs_neg, abs_of_nonneg hd1]; exact hb1.1

/-- C44: outside the bounds the reported derivative never points further out. -/
theorem C44_points_inward (int s x : ℝ) (hint : 0 ≤ int) (hs : 0 < s) (lb ub : X) (h : BoundsOk lb ub) :
    ∃ d, dPenaltyOne int s x lb ub = .fin d ∧ (0 < above x ub → d ≤ 0) ∧ (0 < below x lb → 0 ≤ d) := by
  refine ⟨_, dPenaltyOne_eq hs int x h, fun ha => ?_, fun hb => ?_⟩
  · have : dlo s x lb ≤ dhi s x ub := by
      cases h with
      | none => simp [above] at ha
      | low => simp [above] at ha
      | high u => exact (dsp_pos _ _).le
      | both l u hlu =>
        simp only [above, lt_max_iff, lt_self_iff_false, false_or] at ha
        exact (dsp_le_half hs (by linarith)).trans (half_le_dsp hs ha.le)
    nlinarith
  · have : dhi s x ub ≤ dlo s x lb := by
      cases h with
      | none => simp [below] at hb
      | high => simp [below] at hb
      | low u => exact (dsp_pos _ _).le
      | both l u hlu =>
        simp only [below, lt_max_iff, lt_self_iff_false, false_or] at hb
        exact (dsp_le_half hs (by linarith)).trans (half_le_dsp hs hb.le)
    nlinarith

/-! ## Penalties of constraints -/

theorem chain_sp {s k : ℝ} (hs : 0 < s) (hk : 0 < k) {f : ℝ → ℝ} {j x : ℝ} (hf : HasDerivAt f j x) (hc : Clear s (-f x * k)) :
    HasDerivAt (fun t => -sp s (-f t * k)) (dsp (s * k) (-f x) * k * j) x := by
  have e : dsp (s * k) (-f x) = dsp s (-f x * k) := by
    unfold dsp
    have : (1000 / (s * k) < -f x) ↔ (1000 / s < -f x * k) := by
      rw [div_lt_iff₀ (by positivity), div_lt_iff₀ hs]
      constructor <;> intro h <;> nlinarith
    simp only [this]
    congr 4
    ring
  rw [e]
  have := (HasDerivAt.comp x (hasDeriv_sp hs hc) (hf.neg.mul_const k)).neg
  refine (this.congr_deriv ?_)
  simp only [Pi.neg_apply]
  ring

/-- C44, ordering constraints: the soft penalty is not positive, and its reported derivative is the derivative of the penalty (outside
the window between the cuts). -/
theorem C44_ordering_partial (c : Con.Ordering) (names : List String) (scale int s : ℝ) (hsc : 0 < scale) (hint : 0 < int) (hs : 0 < s)
    (hne : c.less ≠ c.more) (L : Con.OrderingL) (h : c.link names scale = .ok L) (x : Nat → ℝ) (k : Nat)
    (hc : Clear s (-(x L.iMore - x L.iLess) * (scale * int))) :
    ∃ (f : ℝ → ℝ) (d : ℝ), (∀ t, orderingPenalty L int s (Function.update x k t) = .fin (f t) ∧ f t ≤ 0) ∧
      dOrderingPenalty L int s x k = .fin d ∧ HasDerivAt f d (x k) := by
  have hD := C27_ordering c names scale hne L h x k
  have hscale : L.scale = scale := by
    unfold Con.Ordering.link at h; split at h <;> simp at h; rw [← h]
  set m := fun t => Function.update x k t L.iMore - Function.update x k t L.iLess with hm
  have hmx : m (x k) = x L.iMore - x L.iLess := by simp [hm]
  have hL : (fun t => L.fn (Function.update x k t)) = fun t => m t * scale := by
    funext t; simp only [Con.OrderingL.fn, hscale, hm]
  rw [hL] at hD
  have hmd : HasDerivAt m (L.jac x k / scale) (x k) := by
    have := hD.div_const scale
    simpa [mul_div_assoc, hsc.ne'] using this
  have hk : 0 < scale * int := by positivity
  refine ⟨fun t => -sp s (-m t * (scale * int)), _, ?_, ?_, chain_sp hs hk hmd (by rw [hmx]; exact hc)⟩
  · intro t
    refine ⟨?_, by linarith [sp_pos hs (-m t * (scale * int))]⟩
    rw [orderingPenalty, softplus_fin hs, X.fin_neg, hscale]
    congr 3
    simp only [hm]; ring
  · simp only [dOrderingPenalty, dSoftplus_fin, X.fin_mul, hscale, X.fin_neg]
    have e : Function.update (Function.update (fun _ => (0 : X)) L.iMore (X.fin (dsp (s * scale * int) (-(x L.iMore - x L.iLess)) * scale * int))) L.iLess
        (X.fin (-(dsp (s * scale * int) (-(x L.iMore - x L.iLess)) * scale * int))) k =
        X.fin (dsp (s * scale * int) (-(x L.iMore - x L.iLess)) * int * L.jac x k) := by
      simp only [Con.OrderingL.jac, Function.update_apply, hscale]
      split
      · congr 1; ring
      · split
        · congr 1; ring
        · rw [X.zero_def]; congr 1; ring
    rw [e, hmx]
    congr 1
    have : s * (scale * int) = s * scale * int := by ring
    rw [this]
    field_simp

/-- C44, ratio constraints. -/
theorem C44_ratio_partial (c : Con.Ratio) (names : List String) (bmin bmax : X) (scale int s : ℝ) (hsc : 0 < scale) (hint : 0 < int)
    (hs : 0 < s) (hne : c.num ≠ c.den) (L : Con.RatioL) (h : c.link names bmin bmax scale = .ok L) (x : Nat → ℝ) (k : Nat)
    (hd : DifferentiableAt ℝ (fun t => L.fn (Function.update x k t)) (x k)) (hc : Clear s (-(L.fn x) * (scale * int))) :
    ∃ (f : ℝ → ℝ) (d : ℝ), (∀ t, ratioPenalty L scale int s (Function.update x k t) = .fin (f t) ∧ f t ≤ 0) ∧
      dRatioPenalty L scale int s x k = .fin d ∧ HasDerivAt f d (x k) := by
  have hj := C27_ratio c names bmin bmax scale hne L h x k hd
  have hmd := hd.hasDerivAt
  rw [hj] at hmd
  have hk : 0 < scale * int := by positivity
  have hx : L.fn (Function.update x k (x k)) = L.fn x := by simp
  refine ⟨fun t => -sp s (-(L.fn (Function.update x k t)) * (scale * int)), _, ?_, ?_,
    chain_sp hs hk hmd (by rw [hx]; exact hc)⟩
  · intro t
    refine ⟨?_, by linarith [sp_pos hs (-(L.fn (Function.update x k t)) * (scale * int))]⟩
    rw [ratioPenalty, softplus_fin hs, X.fin_neg]
    congr 3
    simp only [Con.RatioL.fn]; ring
  · rw [hx]
    have e2 : s * (scale * int) = s * scale * int := by ring
    rw [e2]
    simp only [dRatioPenalty, dSoftplus_fin, X.fin_mul, Con.RatioL.jac, Con.RatioL.fn]
    split
    all_goals
      simp only [Function.update_apply]
      split
      · congr 1; ring
      · split
        · congr 1; ring
        · rw [X.zero_def]; congr 1; ring

example : (Con.Ordering.mk "a" "b").link ["a", "b"] 1 = .ok ⟨0, 1, 1⟩ ∧ Clear 10 (-((fun i : Nat => if i = 0 then (1 : ℝ) else 0.5) 1 -
    (fun i : Nat => if i = 0 then (1 : ℝ) else 0.5) 0) * (1 * 1)) := by
  refine ⟨rfl, Or.inl ?_⟩
  norm_num

/-! ## C63: the penalised objective -/

/-- C63: with penalties on, the log likelihood is the plain one plus the penalty once per case. -/
theorem C63_value (wn pen : ℝ) (ll : List ℝ) : penalised wn pen ll = ll.sum * wn + ll.length * pen * wn := by
  unfold penalised
  induction ll with
  | nil => simp
  | cons a t ih =>
    simp only [List.map_cons, List.sum_cons, List.length_cons, Nat.cast_add, Nat.cast_one]
    linarith

/-- C63: the reported gradient is the gradient of the reported log likelihood whenever this is so for every case and for the penalty. -/
theorem C63_gradient (wn : ℝ) (ll : List (ℝ → ℝ)) (dll : List ℝ) (pen : ℝ → ℝ) (dpen x : ℝ)
    (h : List.Forall₂ (fun f d => HasDerivAt f d x) ll dll) (hp : HasDerivAt pen dpen x) :
    HasDerivAt (fun t => penalised wn (pen t) (ll.map (fun f => f t))) (dPenalised wn dpen dll) x := by
  unfold penalised dPenalised
  apply HasDerivAt.mul_const
  induction h with
  | nil => simpa using hasDerivAt_const x (0 : ℝ)
  | cons hf _ ih =>
    simp only [List.map_cons, List.sum_cons]
    exact (hf.add hp).add ih

/-- C63: the log likelihood of all cases is the sum over any two blocks of cases, penalties included. -/
theorem C63_additive (wn pen : ℝ) (l1 l2 : List ℝ) : penalised wn pen (l1 ++ l2) = penalised wn pen l1 + penalised wn pen l2 := by
  simp [penalised, add_mul]

/-- C64 fails: a model that holds a `FixedBound` anywhere in its constraints cannot be prepared for any computation, whether penalties
are on or not. -/
theorem C64_fails_fixed (cs : List Kind) (h : Kind.fixed ∈ cs) : constraintFuncs cs = none := by
  induction cs with
  | nil => simp at h
  | cons a t ih =>
    cases a with
    | fixed => rfl
    | ratio => simp only [constraintFuncs]; rw [ih (by simpa using h)]; rfl
    | ordering => simp only [constraintFuncs]; rw [ih (by simpa using h)]; rfl

/-- C64: every other list of constraints can be prepared, and none is lost. -/
theorem C64_others_partial (cs : List Kind) (h : Kind.fixed ∉ cs) : constraintFuncs cs = some cs := by
  induction cs with
  | nil => rfl
  | cons a t ih =>
    simp only [List.mem_cons, not_or] at h
    cases a with
    | fixed => exact absurd rfl h.1
    | ratio => simp only [constraintFuncs]; rw [ih h.2]; rfl
    | ordering => simp only [constraintFuncs]; rw [ih h.2]; rfl

example : constraintFuncs [.ratio, .ordering] = some [.ratio, .ordering] ∧ constraintFuncs [.ratio, .fixed] = none := ⟨rfl, rfl⟩

example : penalised 1 (-2) [-1, -3] = -8 := by norm_num [penalised]

end Larch.Props
