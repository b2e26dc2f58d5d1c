import Verif.Model.Covariance
import Verif.Spec.Covariance
import Mathlib.LinearAlgebra.Matrix.NonsingularInverse
import Mathlib.LinearAlgebra.Matrix.DotProduct
import Mathlib.Tactic.Linarith
import Mathlib.Tactic.FieldSimp
import Mathlib.Tactic.Ring
import Mathlib.Tactic.Positivity

/-!
# C46: the parameter covariance matrix
-/

open Matrix

namespace Larch.Props

open Larch.Cov Larch.CovSpec

set_option linter.unusedSectionVars false

variable {n : Type} [Fintype n] [DecidableEq n]

section inverse
variable {m : Type} [Fintype m]

/-- Penrose: there is at most one such inverse. -/
theorem generalInverse_unique {a x y : Matrix m m ℝ} (hx : GeneralInverse a x) (hy : GeneralInverse a y) : x = y := by
  have e1 : a * x = a * y := by
    calc a * x = (a * x)ᵀ := hx.ax_symm.symm
      _ = ((a * y) * (a * x))ᵀ := by rw [← Matrix.mul_assoc, hy.axa]
      _ = (a * x)ᵀ * (a * y)ᵀ := by rw [transpose_mul]
      _ = a * x * (a * y) := by rw [hx.ax_symm, hy.ax_symm]
      _ = a * y := by rw [← Matrix.mul_assoc, hx.axa]
  have e2 : x * a = y * a := by
    calc x * a = (x * a)ᵀ := hx.xa_symm.symm
      _ = ((x * a) * (y * a))ᵀ := by rw [Matrix.mul_assoc, ← Matrix.mul_assoc a, hy.axa]
      _ = (y * a)ᵀ * (x * a)ᵀ := by rw [transpose_mul]
      _ = y * a * (x * a) := by rw [hx.xa_symm, hy.xa_symm]
      _ = y * a := by rw [Matrix.mul_assoc, ← Matrix.mul_assoc a, hx.axa]
  calc x = x * a * x := hx.xax.symm
    _ = y * (a * x) := by rw [e2, Matrix.mul_assoc]
    _ = y := by rw [e1, ← Matrix.mul_assoc, hy.xax]

theorem generalInverse_symm {a x : Matrix m m ℝ} (ha : aᵀ = a) (hx : GeneralInverse a x) : xᵀ = x := by
  refine generalInverse_unique (a := a) ⟨?_, ?_, ?_, ?_⟩ hx
  · have := congrArg transpose hx.axa
    simpa [transpose_mul, ha, Matrix.mul_assoc] using this
  · have := congrArg transpose hx.xax
    simpa [transpose_mul, ha, Matrix.mul_assoc] using this
  · have := hx.xa_symm
    rw [transpose_mul, ha] at this
    rw [this, transpose_mul, ha, this]
  · have := hx.ax_symm
    rw [transpose_mul, ha] at this
    rw [this, transpose_mul, ha, this]

end inverse

/-! ## Held-fast parameters -/

/-- C46: rows and columns of held-fast parameters are zero, in the covariance and in the robust covariance matrix. -/
theorem C46_holdfast (hold : n → Bool) (x : Matrix (Free hold) (Free hold) ℝ) (bhhh : Matrix n n ℝ) (i j : n) (h : hold i = true) :
    covariance hold x i j = 0 ∧ covariance hold x j i = 0 ∧ robust hold x bhhh i j = 0 ∧ robust hold x bhhh j i = 0 := by
  simp [covariance, robust, scatter, h]

/-- C46: the free block of the covariance matrix is the inverse of the free block of the information matrix, if that is invertible. -/
theorem C46_inverse (hold : n → Bool) (hess : Matrix n n ℝ) (hdet : IsUnit (block hold hess).det)
    (x : Matrix (Free hold) (Free hold) ℝ) (hx : GeneralInverse (block hold hess) x) :
    block hold (covariance hold x) * block hold hess = 1 ∧ block hold hess * block hold (covariance hold x) = 1 := by
  have hb : block hold (covariance hold x) = x := by
    ext i j
    simp [block, covariance, scatter, i.2, j.2]
  have hu : x = (block hold hess)⁻¹ := by
    refine generalInverse_unique hx ⟨?_, ?_, ?_, ?_⟩
    · rw [mul_nonsing_inv _ hdet, Matrix.one_mul]
    · rw [nonsing_inv_mul _ hdet, Matrix.one_mul]
    · rw [mul_nonsing_inv _ hdet, transpose_one]
    · rw [nonsing_inv_mul _ hdet, transpose_one]
  rw [hb, hu]
  exact ⟨nonsing_inv_mul _ hdet, mul_nonsing_inv _ hdet⟩

/-- `scatter` as seen by a quadratic form. -/
theorem variance_scatter (hold : n → Bool) (x : Matrix (Free hold) (Free hold) ℝ) (v : n → ℝ) :
    variance (scatter hold x) v = variance x (fun i => v i.1) := by
  have hsum : ∀ f : n → ℝ, (∀ i, hold i = true → f i = 0) → ∑ i, f i = ∑ i : Free hold, f i.1 := by
    intro f hf
    rw [← Finset.sum_subtype (Finset.univ.filter fun i => hold i = false) (by simp) f]
    refine (Finset.sum_filter_of_ne fun i _ hi => ?_).symm
    by_contra hc
    exact hi (hf i (by simpa using hc))
  simp only [variance, dotProduct, mulVec]
  rw [hsum]
  · refine Finset.sum_congr rfl fun i _ => ?_
    congr 1
    rw [hsum]
    · refine Finset.sum_congr rfl fun j _ => ?_
      simp [scatter, i.2, j.2]
    · intro j hj; simp [scatter, hj]
  · intro i hi
    have : (∑ j, scatter hold x i j * v j) = 0 := Finset.sum_eq_zero fun j _ => by simp [scatter, hi]
    rw [this, mul_zero]

theorem scatter_transpose (hold : n → Bool) (x : Matrix (Free hold) (Free hold) ℝ) (hx : xᵀ = x) : (scatter hold x)ᵀ = scatter hold x := by
  ext i j
  rw [transpose_apply]
  unfold scatter
  by_cases h : hold i = false ∧ hold j = false
  · rw [dif_pos h, dif_pos h.symm]
    exact congrFun (congrFun hx ⟨i, h.1⟩) ⟨j, h.2⟩
  · rw [dif_neg h, dif_neg (fun h' => h h'.symm)]

theorem isCovariance_of_inverse {m : Type} [Fintype m] {a x : Matrix m m ℝ} (ha : IsCovariance a) (hx : GeneralInverse a x) :
    IsCovariance x := by
  have hxs := generalInverse_symm ha.symm hx
  refine ⟨hxs, fun v => ?_⟩
  have : variance x v = variance a (x *ᵥ v) := by
    unfold variance
    conv_lhs => rw [← hx.xax]
    rw [← mulVec_mulVec, ← mulVec_mulVec, dotProduct_mulVec, ← mulVec_transpose, hxs]
  rw [this]
  exact ha.nonneg _

/-- C46: at a maximum (information matrix symmetric, without negative curvature, in the free parameters) the covariance matrix is one. -/
theorem C46_covariance (hold : n → Bool) (hess : Matrix n n ℝ) (hpos : IsCovariance (block hold hess))
    (x : Matrix (Free hold) (Free hold) ℝ) (hx : GeneralInverse (block hold hess) x) : IsCovariance (covariance hold x) := by
  have := isCovariance_of_inverse hpos hx
  exact ⟨scatter_transpose hold x this.symm, fun v => by
    rw [covariance, variance_scatter]; exact this.nonneg _⟩

/-! ## Constraints -/

/-- Cauchy-Schwarz for a covariance matrix. -/
theorem cauchy {s : Matrix n n ℝ} (hs : IsCovariance s) (u v : n → ℝ) : (u ⬝ᵥ s *ᵥ v) * (u ⬝ᵥ s *ᵥ v) ≤ variance s u * variance s v := by
  have hsym : v ⬝ᵥ s *ᵥ u = u ⬝ᵥ s *ᵥ v := by
    rw [dotProduct_mulVec, ← mulVec_transpose, hs.symm, dotProduct_comm]
  have key : ∀ t : ℝ, 0 ≤ variance s u + 2 * t * (u ⬝ᵥ s *ᵥ v) + t * t * variance s v := by
    intro t
    have := hs.nonneg (u + t • v)
    unfold variance at *
    simp only [mulVec_add, mulVec_smul, add_dotProduct, dotProduct_add, smul_dotProduct, dotProduct_smul, smul_eq_mul, hsym] at this
    linarith
  set p := u ⬝ᵥ s *ᵥ v
  have hv := hs.nonneg v
  have hu := hs.nonneg u
  rcases eq_or_lt_of_le hv with h0 | hpos
  · rw [← h0] at key ⊢
    by_contra hne
    have hp : p ≠ 0 := by rintro e; rw [e] at hne; simp at hne
    have := key (-(variance s u + 1) / (2 * p))
    have e : 2 * (-(variance s u + 1) / (2 * p)) * p = -(variance s u + 1) := by field_simp
    rw [e] at this
    linarith
  · have := key (-p / variance s v)
    have e : variance s u + 2 * (-p / variance s v) * p + (-p / variance s v) * (-p / variance s v) * variance s v =
        variance s u - p * p / variance s v := by field_simp; ring
    rw [e] at this
    have h2 : p * p / variance s v ≤ variance s u := by linarith
    rwa [div_le_iff₀ hpos] at h2

theorem mulVec_zero_of_variance {s : Matrix n n ℝ} (hs : IsCovariance s) (b : n → ℝ) (h : variance s b = 0) : s *ᵥ b = 0 := by
  have := cauchy hs (s *ᵥ b) b
  rw [h, mul_zero] at this
  have h0 : (s *ᵥ b) ⬝ᵥ (s *ᵥ b) = 0 := by nlinarith [mul_self_nonneg ((s *ᵥ b) ⬝ᵥ (s *ᵥ b))]
  exact dotProduct_self_eq_zero.1 h0

theorem vecMul_eq {s : Matrix n n ℝ} (hs : sᵀ = s) (b : n → ℝ) : b ᵥ* s = s *ᵥ b := by
  rw [← mulVec_transpose, hs]

theorem variance_project {s : Matrix n n ℝ} (hs : sᵀ = s) (b v : n → ℝ) (h : variance s b ≠ 0) :
    variance (project s b) v = variance s v - (v ⬝ᵥ s *ᵥ b) * (v ⬝ᵥ s *ᵥ b) / variance s b := by
  have hd : b ⬝ᵥ s *ᵥ b ≠ 0 := h
  unfold project
  rw [if_pos hd, vecMul_eq hs]
  unfold variance
  rw [sub_mulVec, dotProduct_sub, smul_mulVec, dotProduct_smul, vecMulVec_mulVec, dotProduct_smul]
  simp only [smul_eq_mul, MulOpposite.smul_eq_mul_unop, MulOpposite.unop_op]
  have : (s *ᵥ b) ⬝ᵥ v = v ⬝ᵥ s *ᵥ b := dotProduct_comm _ _
  rw [this]
  field_simp

theorem project_spec {s : Matrix n n ℝ} (hs : IsCovariance s) (b : n → ℝ) :
    IsCovariance (project s b) ∧ NotGreater (project s b) s ∧ variance (project s b) b = 0 ∧
      ∀ u, variance s u = 0 → variance (project s b) u = 0 := by
  by_cases h : variance s b = 0
  · have : project s b = s := by
      unfold project
      rw [if_neg]
      simpa [variance] using h
    rw [this]
    exact ⟨hs, fun _ => le_refl _, h, fun _ h => h⟩
  · have hpos : 0 < variance s b := lt_of_le_of_ne (hs.nonneg b) (Ne.symm h)
    have hng : NotGreater (project s b) s := fun v => by
      rw [variance_project hs.symm b v h]
      have : 0 ≤ (v ⬝ᵥ s *ᵥ b) * (v ⬝ᵥ s *ᵥ b) / variance s b := div_nonneg (mul_self_nonneg _) hpos.le
      linarith
    have hnn : ∀ v, 0 ≤ variance (project s b) v := fun v => by
      rw [variance_project hs.symm b v h]
      have := cauchy hs v b
      rw [← div_le_iff₀ hpos] at this
      linarith
    refine ⟨⟨?_, hnn⟩, hng, ?_, fun u hu => ?_⟩
    · unfold project
      split
      · rw [transpose_sub, transpose_smul, hs.symm, transpose_vecMulVec, vecMul_eq hs.symm]
      · exact hs.symm
    · rw [variance_project hs.symm b b h]
      unfold variance
      field_simp
      ring
    · exact le_antisymm (hu ▸ hng u) (hnn u)

/-- C46: with any list of constraints, at a maximum: after taking account of the binding ones the matrix is a covariance matrix, no linear
combination of the parameters (in particular no single parameter) has a greater variance than before, and the variance along the
gradient of every binding constraint is zero. -/
theorem C46_constrained (s : Matrix n n ℝ) (hs : IsCovariance s) (cs : List (AtEst n)) :
    IsCovariance (constrained s cs) ∧ NotGreater (constrained s cs) s ∧
      ∀ c ∈ cs, |c.value| < c.tol → variance (constrained s cs) c.jac = 0 := by
  classical
  have key : ∀ (cs : List (AtEst n)) (s : Matrix n n ℝ), IsCovariance s →
      IsCovariance (constrained s cs) ∧ NotGreater (constrained s cs) s ∧
        (∀ u, variance s u = 0 → variance (constrained s cs) u = 0) ∧
        ∀ c ∈ cs, |c.value| < c.tol → variance (constrained s cs) c.jac = 0 := by
    intro cs
    induction cs with
    | nil => intro s hs; exact ⟨hs, fun _ => le_refl _, fun _ h => h, by simp⟩
    | cons c r ih =>
      intro s hs
      have e : constrained s (c :: r) = constrained (if |c.value| < c.tol then project s c.jac else s) r := by
        simp [constrained]
      by_cases hb : |c.value| < c.tol
      · rw [e, if_pos hb]
        obtain ⟨p1, p2, p3, p4⟩ := project_spec hs c.jac
        obtain ⟨i1, i2, i3, i4⟩ := ih _ p1
        refine ⟨i1, fun v => (i2 v).trans (p2 v), fun u hu => i3 u (p4 u hu), fun c' hc' hb' => ?_⟩
        rcases List.mem_cons.1 hc' with rfl | hc'
        · exact i3 _ p3
        · exact i4 c' hc' hb'
      · rw [e, if_neg hb]
        obtain ⟨i1, i2, i3, i4⟩ := ih s hs
        refine ⟨i1, i2, i3, fun c' hc' hb' => ?_⟩
        rcases List.mem_cons.1 hc' with rfl | hc'
        · exact absurd hb' hb
        · exact i4 c' hc' hb'
  obtain ⟨k1, k2, -, k4⟩ := key cs s hs
  exact ⟨k1, k2, k4⟩

/-- C46: held-fast parameters keep zero variance, and zero covariance with all others, when constraints are taken into account. -/
theorem C46_constrained_holdfast (s : Matrix n n ℝ) (hs : IsCovariance s) (cs : List (AtEst n)) (i : n) (h : ∀ j, s i j = 0) (j : n) :
    constrained s cs i j = 0 ∧ constrained s cs j i = 0 := by
  obtain ⟨k1, k2, -⟩ := C46_constrained s hs cs
  have hv : variance s (Pi.single i 1) = 0 := by
    simp [variance, h]
  have hz : variance (constrained s cs) (Pi.single i 1) = 0 := le_antisymm (hv ▸ k2 _) (k1.nonneg _)
  have := mulVec_zero_of_variance k1 _ hz
  have hj : ∀ j, constrained s cs j i = 0 := fun j => by
    have := congrFun this j
    simpa using this
  exact ⟨by rw [← k1.symm]; exact hj j, hj j⟩

/-! ## The hypotheses are met -/

/-- An information matrix of three parameters, the last held fast, and its inverse. -/
def hold3 : Fin 3 → Bool := ![false, false, true]
def hess3 : Matrix (Fin 3) (Fin 3) ℝ := !![2, 0, 5; 0, 4, 6; 5, 6, 7]

noncomputable def inv3 : Matrix (Free hold3) (Free hold3) ℝ := fun i j => if i = j then (if i.1 = 0 then 1 / 2 else 1 / 4) else 0

theorem free3 (i : Free hold3) : i = ⟨0, rfl⟩ ∨ i = ⟨1, rfl⟩ := by
  obtain ⟨i, hi⟩ := i
  fin_cases i
  · exact Or.inl rfl
  · exact Or.inr rfl
  · simp [hold3] at hi

theorem ne01 : (⟨0, rfl⟩ : Free hold3) ≠ ⟨1, rfl⟩ := fun h => by simpa using congrArg Subtype.val h
theorem ne10 : (⟨1, rfl⟩ : Free hold3) ≠ ⟨0, rfl⟩ := fun h => by simpa using congrArg Subtype.val h

theorem sum_free3 (f : Free hold3 → ℝ) : ∑ i, f i = f ⟨0, rfl⟩ + f ⟨1, rfl⟩ := by
  have : (Finset.univ : Finset (Free hold3)) = {⟨0, rfl⟩, ⟨1, rfl⟩} := by
    ext i
    simpa using free3 i
  rw [this, Finset.sum_pair ne01]

theorem inverse3 : GeneralInverse (block hold3 hess3) inv3 := by
  have e1 : block hold3 hess3 * inv3 = 1 := by
    ext i j
    rw [mul_apply, sum_free3]
    rcases free3 i with rfl | rfl <;> rcases free3 j with rfl | rfl <;> simp [block, hess3, inv3, one_apply, ne01, ne10]
  have e2 : inv3 * block hold3 hess3 = 1 := by
    ext i j
    rw [mul_apply, sum_free3]
    rcases free3 i with rfl | rfl <;> rcases free3 j with rfl | rfl <;> simp [block, hess3, inv3, one_apply, ne01, ne10]
  refine ⟨?_, ?_, ?_, ?_⟩
  · rw [e1, Matrix.one_mul]
  · rw [e2, Matrix.one_mul]
  · rw [e1, transpose_one]
  · rw [e2, transpose_one]

theorem pos3 : IsCovariance (block hold3 hess3) := by
  constructor
  · ext i j
    rcases free3 i with rfl | rfl <;> rcases free3 j with rfl | rfl <;> simp [block, hess3]
  · intro v
    simp only [variance, dotProduct, mulVec, sum_free3]
    simp [block, hess3]
    nlinarith [mul_self_nonneg (v ⟨0, rfl⟩), mul_self_nonneg (v ⟨1, rfl⟩)]

example : IsCovariance (covariance hold3 inv3) := C46_covariance hold3 hess3 pos3 inv3 inverse3

/-- With the binding constraint that the first two parameters are equal, the variance of their difference is zero. -/
example : variance (constrained (covariance hold3 inv3) [⟨0, ![1, -1, 0], 1 / 10000⟩]) ![1, -1, 0] = 0 :=
  (C46_constrained _ (C46_covariance hold3 hess3 pos3 inv3 inverse3) _).2.2 _ (List.mem_singleton_self _) (by norm_num)

/-- C46 fails for the robust covariance matrix, which is not adjusted: in the same model, with a BHHH matrix equal to the identity, the
difference of the two parameters keeps the variance 5/16, although a binding constraint makes them equal. -/
theorem C46_fails_robust : variance (robust hold3 inv3 1) ![1, -1, 0] = 5 / 16 := by
  rw [robust, variance_scatter]
  simp only [variance, dotProduct, mulVec, sum_free3, mul_apply]
  simp [block, inv3, one_apply, ne01, ne10]
  norm_num

end Larch.Props
