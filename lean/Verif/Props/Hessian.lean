import Verif.Model.Hessian
import Mathlib.Analysis.Calculus.Deriv.MeanValue
import Mathlib.Analysis.Calculus.Deriv.Pow
import Mathlib.Analysis.Calculus.Deriv.Slope

/-!
# C103: the numerical Hessian and the state of the model after it; C104: passing a gradient check
-/

namespace Larch.Props

open Larch.Hess

variable {n : Nat} {J : Type}

/-- The point with the parameter `k` moved by `ε`, unless it is held fast. -/
noncomputable def moved (hold : Fin n → Bool) (x : Vec n) (ε : ℝ) (k : Fin n) : Vec n := if hold k then x else Function.update x k (x k + ε)

theorem setValues_bumped {hold : Fin n → Bool} {s x : Vec n} (hs : ∀ i, hold i = true → s i = x i) (ε : ℝ) (k : Fin n) :
    setValues hold s (bumped x ε k) = moved hold x ε k := by
  funext i
  unfold setValues bumped moved
  by_cases hk : hold k = true
  · rw [if_pos hk]
    by_cases hi : hold i = true
    · rw [if_pos hi]; exact hs i hi
    · rw [if_neg hi, if_neg (by rintro rfl; exact hi hk)]; simp
  · rw [if_neg hk]
    by_cases hi : hold i = true
    · rw [if_pos hi, Function.update_of_ne (by rintro rfl; exact hk hi)]; exact hs i hi
    · rw [if_neg hi]
      by_cases hik : i = k
      · subst hik; simp
      · rw [Function.update_of_ne hik, if_neg hik]; simp

theorem setValues_self {hold : Fin n → Bool} {s x : Vec n} (hs : ∀ i, hold i = true → s i = x i) : setValues hold s x = x := by
  funext i
  unfold setValues
  split
  · exact hs i ‹_›
  · rfl

theorem moved_hold {hold : Fin n → Bool} (x : Vec n) (ε : ℝ) (k i : Fin n) (h : hold i = true) : moved hold x ε k i = x i := by
  unfold moved
  split
  · rfl
  · rename_i hk
    rw [Function.update_of_ne]
    rintro rfl
    exact hk h

theorem fprimeLoop_eval (hold : Fin n → Bool) (g : Vec n → J → Option ℝ) (x : Vec n) (ε : ℝ) (f0 : J → ℝ) (ks : List (Fin n))
    (s : Vec n) (hs : ∀ i, hold i = true → s i = x i) :
    fprimeLoop (evalAt hold g) x ε f0 ks s =
      (ks.map fun k j => (nanToNum (g (moved hold x ε k) j) - f0 j) / ε, (ks.getLast?.map (moved hold x ε)).getD s) := by
  induction ks generalizing s with
  | nil => rfl
  | cons k ks ih =>
    unfold fprimeLoop
    simp only [evalAt, setValues_bumped hs]
    have := ih (moved hold x ε k) (fun i hi => moved_hold x ε k i hi)
    simp only [this, List.map_cons, mul_one]
    congr 1
    cases hl : ks.getLast? with
    | none =>
      have : ks = [] := by simpa using hl
      subst this; simp
    | some l =>
      rw [List.getLast?_cons, hl]; simp

/-- The values after `d2_loglike()`: `x` with the last parameter moved by `ε`, unless it is held fast. -/
theorem d2Loglike_eq (hold : Fin n → Bool) (g : Vec n → Fin n → Option ℝ) (ε : ℝ) (cur : Vec n) (x : Option (Vec n)) :
    d2Loglike hold g ε cur x =
      ((List.finRange n).map fun k j => (nanToNum (g (moved hold (start hold cur x) ε k) j) - nanToNum (g (start hold cur x) j)) / ε,
        ((List.finRange n).getLast?.map (moved hold (start hold cur x) ε)).getD (start hold cur x)) := by
  unfold d2Loglike approxFprime
  simp only [evalAt]
  have h := setValues_self (hold := hold) (s := start hold cur x) (x := start hold cur x) (fun _ _ => rfl)
  rw [h]
  exact fprimeLoop_eval hold g _ ε _ _ _ (fun _ _ => rfl)

/-- The entry of the returned matrix for the parameters `k` and `j`. -/
noncomputable def entry (r : List (Fin n → ℝ) × Vec n) (k j : Fin n) : ℝ := (r.1.getD k.1 fun _ => 0) j

theorem entry_eq (hold : Fin n → Bool) (g : Vec n → Fin n → Option ℝ) (ε : ℝ) (cur : Vec n) (x : Option (Vec n)) (k j : Fin n) :
    entry (d2Loglike hold g ε cur x) k j =
      (nanToNum (g (moved hold (start hold cur x) ε k) j) - nanToNum (g (start hold cur x) j)) / ε := by
  unfold entry
  rw [d2Loglike_eq]
  simp

/-- The shape of the result: one row for each parameter. -/
theorem C103_shape (hold : Fin n → Bool) (g : Vec n → Fin n → Option ℝ) (ε : ℝ) (cur : Vec n) (x : Option (Vec n)) :
    (d2Loglike hold g ε cur x).1.length = n := by
  rw [d2Loglike_eq]; simp

/-- **C103 (accuracy).**  Let `G` be the gradient of the log likelihood (C05), `x` the values, `k` not held fast.  If `G j` has the
derivative `D` in the direction of parameter `k` between `x` and `x + ε`, and `D` changes by at most `L` per unit there, then the entry
is within `L ε` of the second derivative. -/
theorem C103_accuracy (hold : Fin n → Bool) (G : Vec n → Fin n → ℝ) (ε : ℝ) (hε : 0 < ε) (x : Vec n) (k j : Fin n) (hk : hold k = false)
    (D : ℝ → ℝ) (L : ℝ) (hD : ∀ t ∈ Set.Icc (x k) (x k + ε), HasDerivAt (fun t => G (Function.update x k t) j) (D t) t)
    (hL : ∀ t ∈ Set.Icc (x k) (x k + ε), |D t - D (x k)| ≤ L * (t - x k)) :
    |entry (d2Loglike hold (fun v i => some (G v i)) ε x none) k j - D (x k)| ≤ L * ε := by
  rw [entry_eq]
  simp only [start, nanToNum, Option.getD_some, moved, hk, Bool.false_eq_true, if_false]
  obtain ⟨c, hc, h⟩ := exists_hasDerivAt_eq_slope (fun t => G (Function.update x k t) j) D (show x k < x k + ε by linarith)
    (fun t ht => (hD t ht).continuousAt.continuousWithinAt) (fun t ht => hD t ⟨ht.1.le, ht.2.le⟩)
  simp only [Function.update_eq_self, add_sub_cancel_left] at h
  rw [← h]
  refine (hL c ⟨hc.1.le, hc.2.le⟩).trans ?_
  have h0 := hL c ⟨hc.1.le, hc.2.le⟩
  have hLnn : 0 ≤ L := by
    by_contra hneg
    have : L * (c - x k) < 0 := mul_neg_of_neg_of_pos (not_le.1 hneg) (by linarith [hc.1])
    linarith [abs_nonneg (D c - D (x k))]
  exact mul_le_mul_of_nonneg_left (by linarith [hc.2]) hLnn

/-- **C103 (consistency).**  For smaller and smaller increments the entries tend to the second derivatives. -/
theorem C103_limit (hold : Fin n → Bool) (G : Vec n → Fin n → ℝ) (x : Vec n) (k j : Fin n) (hk : hold k = false) (D : ℝ)
    (hD : HasDerivAt (fun t => G (Function.update x k t) j) D (x k)) :
    Filter.Tendsto (fun ε => entry (d2Loglike hold (fun v i => some (G v i)) ε x none) k j) (nhdsWithin 0 {0}ᶜ) (nhds D) := by
  have h := hasDerivAt_iff_tendsto_slope_zero.1 hD
  refine h.congr ?_
  intro ε
  rw [entry_eq]
  simp [start, nanToNum, moved, hk, div_eq_inv_mul]

/-- **C103 (values given).**  `d2_loglike(x)` is the matrix a model has whose free parameters are `x` and whose held-fast parameters are as
they were, whatever the free parameters were before. -/
theorem C103_at_x (hold : Fin n → Bool) (g : Vec n → Fin n → Option ℝ) (ε : ℝ) (cur x v : Vec n)
    (hv : ∀ i, v i = if hold i then cur i else x i) :
    (d2Loglike hold g ε cur (some x)).1 = (d2Loglike hold g ε v none).1 ∧
    (d2Loglike hold g ε cur (some x)).2 = (d2Loglike hold g ε v none).2 := by
  have : start hold cur (some x) = v := by
    funext i
    rw [hv i]; rfl
  rw [d2Loglike_eq, d2Loglike_eq, this]
  exact ⟨rfl, rfl⟩

/-- **C103 (the matrix that is inverted).**  The covariance is computed from the negated Hessian at the current values. -/
theorem C103_covariance {B : Type} (hold : Fin n → Bool) (g : Vec n → Fin n → Option ℝ) (b : Vec n → B) (ε : ℝ) (cur : Vec n) (k j : Fin n) :
    ((covarianceParts hold g b ε cur).1.getD k.1 fun _ => 0) j = -entry (d2Loglike hold g ε cur none) k j := by
  unfold covarianceParts entry
  rw [d2Loglike_eq]
  simp

/-- **C103 (exact for quadratic log likelihoods).** -/
theorem C103_quadratic (hold : Fin n → Bool) (c : Vec n) (A : Fin n → Fin n → ℝ) (ε : ℝ) (hε : ε ≠ 0) (x : Vec n) (k j : Fin n)
    (hk : hold k = false) :
    entry (d2Loglike hold (fun v i => some (c i + ∑ l, A i l * v l)) ε x none) k j = A j k := by
  rw [entry_eq]
  simp only [start, nanToNum, Option.getD_some, moved, hk, Bool.false_eq_true, if_false]
  have : ∑ l, A j l * Function.update x k (x k + ε) l = ∑ l, A j l * x l + A j k * ε := by
    have h1 : ∀ l, A j l * Function.update x k (x k + ε) l = A j l * x l + (if l = k then A j k * ε else 0) := by
      intro l
      by_cases hl : l = k
      · subst hl; simp; ring
      · simp [hl]
    simp only [h1, Finset.sum_add_distrib, Finset.sum_ite_eq', Finset.mem_univ, if_true]
  rw [this]
  field_simp
  ring

/-- **C103 (held fast).**  Rows of held-fast parameters are zero; so are their columns when their gradient is (C07). -/
theorem C103_holdfast (hold : Fin n → Bool) (g : Vec n → Fin n → Option ℝ) (ε : ℝ) (cur : Vec n) (x : Option (Vec n)) (k j : Fin n)
    (h : hold k = true ∨ hold j = true ∧ ∀ v, g v j = some 0) : entry (d2Loglike hold g ε cur x) k j = 0 := by
  rw [entry_eq]
  rcases h with h | ⟨-, h⟩
  · simp [moved, h]
  · simp [h]

theorem getLast_finRange (n : Nat) : (List.finRange (n + 1)).getLast? = some (Fin.last n) := by
  rw [List.getLast?_eq_getElem?]
  simp [Fin.last]

/-- **C103 (values afterwards): restored, partial** — exactly when the last parameter is held fast. -/
theorem C103_restores_partial (hold : Fin (n + 1) → Bool) (g : Vec (n + 1) → Fin (n + 1) → Option ℝ) (ε : ℝ) (cur : Vec (n + 1))
    (hlast : hold (Fin.last n) = true) : (d2Loglike hold g ε cur none).2 = cur := by
  rw [d2Loglike_eq, getLast_finRange]
  simp [start, moved, hlast]

/-- **C103 violated (values afterwards).**  If the last parameter is not held fast, `d2_loglike()` (hence
`calculate_parameter_covariance()` and `estimate()`) leaves it moved by `ε`; all others are as before. -/
theorem C103_fails_restore (hold : Fin (n + 1) → Bool) (g : Vec (n + 1) → Fin (n + 1) → Option ℝ) (ε : ℝ) (hε : ε ≠ 0)
    (cur : Vec (n + 1)) (hlast : hold (Fin.last n) = false) :
    (d2Loglike hold g ε cur none).2 = Function.update cur (Fin.last n) (cur (Fin.last n) + ε) ∧
      (d2Loglike hold g ε cur none).2 ≠ cur := by
  have : (d2Loglike hold g ε cur none).2 = Function.update cur (Fin.last n) (cur (Fin.last n) + ε) := by
    rw [d2Loglike_eq, getLast_finRange]
    simp [start, moved, hlast]
  refine ⟨this, fun h => hε ?_⟩
  have h1 := congrFun (this.symm.trans h) (Fin.last n)
  simp only [Function.update_self] at h1
  linarith

/-- **C103 violated (robust covariance).**  The BHHH matrix in the robust covariance is not taken at the estimates but at the
point with the last parameter moved. -/
theorem C103_fails_robust {B : Type} (hold : Fin (n + 1) → Bool) (g : Vec (n + 1) → Fin (n + 1) → Option ℝ) (b : Vec (n + 1) → B) (ε : ℝ)
    (cur : Vec (n + 1)) (hlast : hold (Fin.last n) = false) :
    (covarianceParts hold g b ε cur).2.1 = b (Function.update cur (Fin.last n) (cur (Fin.last n) + ε)) := by
  unfold covarianceParts
  rw [d2Loglike_eq, getLast_finRange]
  simp [start, moved, hlast]

/-- **C103 violated (missing values).**  A gradient that is NaN at the moved point yields the second derivative `-g/ε` instead of a
NaN. -/
theorem C103_fails_nan (hold : Fin n → Bool) (g : Vec n → Fin n → Option ℝ) (ε : ℝ) (x : Vec n) (k j : Fin n) (a : ℝ)
    (hx : g x j = some a) (hnan : g (moved hold x ε k) j = none) : entry (d2Loglike hold g ε x none) k j = -a / ε := by
  rw [entry_eq]
  simp [start, hx, hnan, nanToNum]

/-- **C103 violated (symmetry).**  The matrix is not symmetric, although it is given to routines for symmetric matrices: for the log
likelihood `x² y` its two mixed entries differ by `ε`. -/
theorem C103_fails_symmetric (ε : ℝ) (hε : ε ≠ 0) (x : Vec 2) :
    entry (d2Loglike (fun _ => false) (fun v i => some (if i = 0 then 2 * v 0 * v 1 else v 0 ^ 2)) ε x none) 0 1 =
      entry (d2Loglike (fun _ => false) (fun v i => some (if i = 0 then 2 * v 0 * v 1 else v 0 ^ 2)) ε x none) 1 0 + ε := by
  rw [entry_eq, entry_eq]
  simp only [start, nanToNum, Option.getD_some, moved, Bool.false_eq_true, if_false]
  simp
  field_simp
  ring

/-- **C103 (check).**  `check_d_loglike()` leaves the values as they were and compares the gradient at those values with finite
differences of the log likelihood from them. -/
theorem C103_check (hold : Fin n → Bool) (f : Vec n → Option ℝ) (g : Vec n → Fin n → Option ℝ) (ε : ℝ) (cur : Vec n) :
    checkDLoglike hold f g ε cur =
      ((List.finRange n).map fun k => (nanToNum (f (moved hold cur ε k)) - nanToNum (f cur)) / ε, g cur, cur) := by
  unfold checkDLoglike approxFprime
  simp only [evalAt]
  rw [setValues_self (hold := hold) (s := cur) (x := cur) (fun _ _ => rfl)]
  have h := fprimeLoop_eval (J := Unit) hold (fun v _ => f v) cur ε (fun _ => nanToNum (f cur)) (List.finRange n) cur (fun _ _ => rfl)
  rw [h]
  have hlast : setValues hold (((List.finRange n).getLast?.map (moved hold cur ε)).getD cur) cur = cur := by
    refine setValues_self ?_
    intro i hi
    cases (List.finRange n).getLast? with
    | none => rfl
    | some l => exact moved_hold cur ε l i hi
  simp only [hlast, List.map_map]
  rfl

/-! ## C104 -/

/-- Two numbers agree to `d` figures, or one is zero and the other at most `1/(100 d)`. -/
def Agree (d : ℝ) (a b : ℝ) : Prop := |a - b| ≤ 10 ^ (-d) * max |a| |b| ∨ (a = 0 ∨ b = 0) ∧ |a - b| ≤ 1 / (100 * d)

/-- **C104 (soundness), partial: entries without NaN** (see `C104_fails_nan`).  If the gradient check passes with `d` figures, every
pair of numbers compared agrees to `d` figures. -/
theorem C104_passes_partial (d : ℝ) (hd : 0 < d) (skip : Bool) (l : List (Option ℝ × Option ℝ)) (h : passes d skip l) (a b : ℝ)
    (hab : (some a, some b) ∈ l) : Agree d a b := by
  obtain ⟨-, h⟩ := h
  by_cases heq : a = b
  · left; subst heq; simp; positivity
  have hk : (some a, some b) ∈ kept skip l := by
    unfold kept
    split
    · rw [List.mem_filter]
      refine ⟨hab, ?_⟩
      simp only [Option.some.injEq, Bool.not_and, Bool.or_eq_true, Bool.not_eq_true', decide_eq_false_iff_not]
      by_cases ha : a = 0
      · right; rintro rfl; exact heq ha
      · left; exact ha
    · exact hab
  have hpos : 0 < |a - b| := abs_pos.2 (sub_ne_zero.2 heq)
  have hs : ∀ s, similarity (1 / 100) (some a) (some b) = some s → d ≤ s := fun s hs =>
    h s (List.mem_filterMap.2 ⟨_, hk, hs⟩)
  have hz : ∀ s, s = 1 / 100 / |a - b| → d ≤ s → |a - b| ≤ 1 / (100 * d) := by
    intro s hs hds
    rw [hs, le_div_iff₀ hpos] at hds
    rw [le_div_iff₀ (by positivity)]
    linarith
  by_cases hb : b = 0
  · right
    exact ⟨Or.inr hb, hz _ rfl (hs _ (by simp only [similarity, if_neg heq, if_pos hb]))⟩
  by_cases ha : a = 0
  · right
    exact ⟨Or.inl ha, hz _ rfl (hs _ (by simp only [similarity, if_neg heq, if_neg hb, if_pos ha]))⟩
  left
  have h1 := hs (-Real.logb 10 (|a - b| / max |a| |b|)) (by simp [similarity, heq, hb, ha])
  have hm : 0 < max |a| |b| := lt_max_of_lt_left (abs_pos.2 ha)
  have h2 : Real.logb 10 (|a - b| / max |a| |b|) ≤ -d := by linarith
  rw [Real.logb_le_iff_le_rpow (by norm_num) (by positivity), div_le_iff₀ hm] at h2
  exact h2

/-- **C104 (completeness).**  Numbers that agree to more figures pass: if every compared pair is equal or differs by at most the
fraction `10^-d` of the larger one, with neither zero, and something is compared, the check passes. -/
theorem C104_accepts (d : ℝ) (hd : d ≤ 100) (l : List (ℝ × ℝ)) (hne : l ≠ [])
    (h : ∀ e ∈ l, e.1 = e.2 ∨ e.1 ≠ 0 ∧ e.2 ≠ 0 ∧ |e.1 - e.2| ≤ 10 ^ (-d) * max |e.1| |e.2|) :
    passes d false (l.map fun e => (some e.1, some e.2)) := by
  have hsim : ∀ e ∈ l, ∃ s, similarity (1 / 100) (some e.1) (some e.2) = some s ∧ d ≤ s := by
    intro e he
    by_cases heq : e.1 = e.2
    · exact ⟨100, by simp [similarity, heq], hd⟩
    · rcases h e he with h1 | ⟨h1, h2, h3⟩
      · exact absurd h1 heq
      · refine ⟨_, by simp only [similarity, heq, h1, h2, if_false]; rfl, ?_⟩
        have hm : 0 < max |e.1| |e.2| := lt_max_of_lt_left (abs_pos.2 h1)
        have hpos : 0 < |e.1 - e.2| := abs_pos.2 (sub_ne_zero.2 heq)
        have : Real.logb 10 (|e.1 - e.2| / max |e.1| |e.2|) ≤ -d := by
          rw [Real.logb_le_iff_le_rpow (by norm_num) (by positivity), div_le_iff₀ hm]
          exact h3
        linarith
  refine ⟨?_, ?_⟩
  · obtain ⟨e, he⟩ := List.exists_mem_of_ne_nil l hne
    obtain ⟨s, hs, -⟩ := hsim e he
    exact List.ne_nil_of_mem (List.mem_filterMap.2 ⟨_, by simp only [kept, Bool.false_eq_true, if_false]; exact List.mem_map.2 ⟨e, he, rfl⟩, hs⟩)
  · intro s hs
    simp only [kept, Bool.false_eq_true, if_false, List.mem_filterMap, List.mem_map] at hs
    obtain ⟨p, ⟨e, he, rfl⟩, hs⟩ := hs
    obtain ⟨s', hs', hle⟩ := hsim e he
    rw [hs'] at hs
    cases hs
    exact hle

/-- **C104 violated (missing values).**  A gradient that is NaN in any entry but one passes the check, whatever the required
figures up to 100. -/
theorem C104_fails_nan (d : ℝ) (hd : d ≤ 100) (l : List ℝ) :
    passes d true ((some 1, some 1) :: l.map fun x => (some x, none)) := by
  have : (kept true ((some (1 : ℝ), some (1 : ℝ)) :: l.map fun x => (some x, none))).filterMap (fun e => similarity (1 / 100) e.1 e.2) =
      [100] := by
    unfold kept
    rw [if_pos rfl, List.filter_cons_of_pos (by simp), List.filterMap_cons_some (by simp [similarity]; rfl)]
    congr 1
    rw [List.filterMap_eq_nil_iff]
    intro e he
    rw [List.mem_filter, List.mem_map] at he
    obtain ⟨⟨x, -, rfl⟩, -⟩ := he
    rfl
  refine ⟨by rw [this]; simp, ?_⟩
  rw [this]
  intro s hs
  simp only [List.mem_singleton] at hs
  rw [hs]; exact hd

/-- **C104 violated (all zero).**  A correct gradient of zeros fails the check with `skip_zeros` (there is nothing left to take the
minimum of). -/
theorem C104_fails_zero (d : ℝ) (l : List (Option ℝ × Option ℝ)) (h : ∀ e ∈ l, e = (some 0, some 0)) : ¬ passes d true l := by
  rintro ⟨h1, -⟩
  apply h1
  have : kept true l = [] := by
    unfold kept
    rw [if_pos rfl, List.filter_eq_nil_iff]
    intro e he
    rw [h e he]; simp
  rw [this]; rfl

/-! ## Concrete cases -/

/-- The accuracy for the log likelihood `x² y` in the direction of the first parameter: within `2 ε`. -/
example (ε : ℝ) (hε : 0 < ε) : |entry (d2Loglike (fun _ => false) (fun v i => some (if i = 0 then 2 * v 0 * v 1 else v 0 ^ 2)) ε ![3, 5] none)
    (0 : Fin 2) 1 - 6| ≤ 2 * ε := by
  have := C103_accuracy (fun _ => false) (fun v (i : Fin 2) => if i = 0 then 2 * v 0 * v 1 else v 0 ^ 2) ε hε ![3, 5] 0 1 rfl
    (fun t => 2 * t) 2 (by
      intro t _
      have : (fun t : ℝ => (fun v (i : Fin 2) => if i = 0 then 2 * v 0 * v 1 else v 0 ^ 2) (Function.update ![(3 : ℝ), 5] 0 t) 1) = fun t => t ^ 2 := by
        funext t; simp
      rw [this]
      simpa using hasDerivAt_pow 2 t) (by
      intro t ht
      rw [← mul_sub, abs_mul, abs_of_nonneg (sub_nonneg.2 ht.1)]; simp)
  norm_num at this ⊢
  exact this

/-- A pair that agrees to four figures. -/
example : passes 4 false [(some 1, some (1 + 1 / 20000))] := by
  have := C104_accepts 4 (by norm_num) [(1, 1 + 1 / 20000)] (by simp) (by
    intro e he
    simp only [List.mem_singleton] at he
    subst he
    right
    refine ⟨by norm_num, by norm_num, ?_⟩
    rw [show (10 : ℝ) ^ (-4 : ℝ) = 1 / 10000 by rw [show (-4 : ℝ) = ((-4 : ℤ) : ℝ) by norm_num, Real.rpow_intCast]; norm_num]
    rw [abs_of_neg (by norm_num), max_eq_right (by rw [abs_of_pos, abs_of_pos] <;> norm_num), abs_of_pos (by norm_num)]
    norm_num)
  exact this

end Larch.Props
