import Verif.Lemmas.CompiledMnl
import Verif.Lemmas.KernelHold
import Verif.Props.KernelGrad

/-!
# C72, C73: multinomial logit in the compiled engine
-/

namespace Larch.Props

open Function Larch Larch.Kernel Larch.Compiled Larch.Spec
open scoped BigOperators
open Classical

variable {n : Nat} {M : Terms} {θ : Nat → ℝ} {C : Case} {A : Nat → Bool} {x : Nat → Nat → ℝ}

/-! ## C72 -/

/-- **C72 (probabilities).** The compiled multinomial logit probabilities are the logit probabilities of the declared utilities
over the offered alternatives - whatever the magnitude of the utilities - and they add up to 1. -/
theorem C72_probability (h : LogitCase n M θ C A x) (hold : Nat → Bool) (ho : ∃ a < n, A a = true) :
    (∀ a < n, (mnlCase n M hold θ C).probability a = .fin (logitProb n A (utility M θ (coReal C) x) a)) ∧
    ∑ a ∈ Finset.range n, logitProb n A (utility M θ (coReal C) x) a = 1 :=
  ⟨fun _ ha => LogitCase.prob h hold ho ha, logitProb_sum _ ho⟩

/-- **C72 (nothing offered).** A case without offered alternatives has probability 0 everywhere (not NaN). -/
theorem C72_nothing_offered (h : LogitCase n M θ C A x) (hold : Nat → Bool) (ho : ∀ a < n, A a = false) (a : Nat) :
    (mnlCase n M hold θ C).probability a = .fin 0 := by
  have hs := (LogitCase.rep h hold).sumExp
  rw [expSum_none _ ho] at hs
  show mnlProb n (Compiled.assemble θ hold n M C).U a = _
  unfold mnlProb
  rw [if_pos (by rw [hs]; rfl)]
  rfl

/-- **C72 (log likelihood).** -/
theorem C72_loglike (h : LogitCase n M θ C A x) (hold : Nat → Bool) (hch : ∀ a < n, C.ch a ≠ 0 → A a = true) :
    (mnlCase n M hold θ C).ll = .fin (logitLL n A (utility M θ (coReal C) x) C.ch C.wt) :=
  LogitCase.ll h hold hch

/-- **C72 (gradient), for a parameter in at most one quantity term.** For a free parameter the compiled gradient entry is the
derivative of the compiled log likelihood.  The missing case is `C72_fails_duplicate_quantity`. -/
theorem C72_gradient_partial (h : LogitCase n M θ C A x) (hold : Nat → Bool) (p : Nat) (hp : hold p = false)
    (hq : (M.q.filter (fun t => t.param = p)).length ≤ 1) (ho : ∃ a < n, A a = true)
    (hch : ∀ a < n, C.ch a ≠ 0 → A a = true) :
    ∃ (f : ℝ → ℝ) (g : ℝ), (∀ᶠ t in nhds (θ p), (mnlCase n M hold (update θ p t) C).ll = .fin (f t)) ∧
      (mnlCase n M hold θ C).dll p = .fin g ∧ HasDerivAt f g (θ p) := by
  refine ⟨fun t => logitLL n A (utility M (update θ p t) (coReal C) x) C.ch C.wt, _, ?_,
    (LogitCase.grad h hold ho hch).1 p, ?_⟩
  · filter_upwards [logitCase_eventually h p] with t ht
    exact LogitCase.ll ht hold hch
  · unfold logitLL
    apply HasDerivAt.const_mul
    apply HasDerivAt.fun_sum
    intro a ha
    have ha' := Finset.mem_range.mp ha
    by_cases hc : C.ch a = 0
    · simp only [hc, zero_mul]; exact hasDerivAt_const _ _
    · exact (score_hasDeriv h hold p hp hq ha' (hch a ha' hc)).const_mul _

/-- **C72 (BHHH).** Gradient and BHHH matrix are the weighted sums, over the chosen alternatives, of their scores and of the
products of their scores, a score being the derivative of the log probability. -/
theorem C72_bhhh_partial (h : LogitCase n M θ C A x) (hold : Nat → Bool) (ho : ∃ a < n, A a = true)
    (hch : ∀ a < n, C.ch a ≠ 0 → A a = true) :
    ∃ s : Nat → Nat → ℝ,
      (∀ a < n, A a = true → ∀ p, hold p = false → (M.q.filter (fun t => t.param = p)).length ≤ 1 →
        HasDerivAt (fun t => Real.log (logitProb n A (utility M (update θ p t) (coReal C) x) a)) (s a p) (θ p)) ∧
      (∀ p, (mnlCase n M hold θ C).dll p = .fin (C.wt * ∑ a ∈ Finset.range n, C.ch a * s a p)) ∧
      (∀ p q, (mnlCase n M hold θ C).bhhh p q = .fin (C.wt * ∑ a ∈ Finset.range n, C.ch a * (s a p * s a q))) :=
  ⟨codeScore n M hold θ C A x, fun _ ha hA p hp hq => score_hasDeriv h hold p hp hq ha hA,
    (LogitCase.grad h hold ho hch).1, (LogitCase.grad h hold ho hch).2⟩

/-- **C72 (held-fast parameters).** Gradient and BHHH entries of a parameter held fast are zero. -/
theorem C72_held_zero (h : LogitCase n M θ C A x) (hold : Nat → Bool) (p : Nat) (hp : hold p = true) (ho : ∃ a < n, A a = true)
    (hch : ∀ a < n, C.ch a ≠ 0 → A a = true) :
    (mnlCase n M hold θ C).dll p = .fin 0 ∧ ∀ q, (mnlCase n M hold θ C).bhhh p q = .fin 0 := by
  have hz : ∀ a, codeScore n M hold θ C A x a p = 0 := by
    intro a
    unfold codeScore
    apply Finset.sum_eq_zero
    intro i _
    rw [codeCoef_hold _ _ _ _ _ hp]
    simp
  constructor
  · rw [(LogitCase.grad h hold ho hch).1 p]; simp [hz]
  · intro q
    rw [(LogitCase.grad h hold ho hch).2 p q]; simp [hz]

theorem C72_demo : LogitCase 3 demoTerms demoTheta demoCase demoCase.av (caReal demoCase) := by
  obtain ⟨h1, h2⟩ := offers_of_dense demo_dense
  refine ⟨h1, h2, fun a ha hA => ?_⟩
  have ha2 : a ≤ 1 := by simpa [demoCase] using hA
  have hu : utility demoTerms demoTheta (coReal demoCase) (caReal demoCase) a = if a = 1 then 3 else 2 := by
    have : a = 0 ∨ a = 1 := by omega
    rcases this with rfl | rfl <;>
    simp [utility, demoTerms, demoTheta, sizeScale, size, caReal, demoCase, coValue] <;> norm_num
  rw [hu]
  split_ifs <;> norm_num

/-- The conditions are met by a case with an unavailable alternative with NaN data. -/
example : ∑ a ∈ Finset.range 3, logitProb 3 demoCase.av (utility demoTerms demoTheta (coReal demoCase) (caReal demoCase)) a = 1 :=
  (C72_probability C72_demo (fun _ => false) ⟨0, by norm_num, rfl⟩).2

example (p : Nat) (hp : p = 0 ∨ p = 2 ∨ p = 3) := C72_gradient_partial C72_demo (fun _ => false) p rfl
    (by rcases hp with rfl | rfl | rfl <;> simp [demoTerms]) ⟨0, by norm_num, rfl⟩ demo_chosen

example := C72_bhhh_partial C72_demo (fun _ => false) ⟨0, by norm_num, rfl⟩ demo_chosen
example := C72_held_zero C72_demo (fun p => p = 2) 2 rfl ⟨0, by norm_num, rfl⟩ demo_chosen

/-- A sparse case: three alternatives are declared, rows are present for 0 and 2, alternative 2 is not available. -/
noncomputable def sparseDemo : Case where
  ch a := if a = 0 then 1 else 0
  av a := a < 2
  wt := 1
  co _ := .nan
  ca _ _ := .nan
  ce := some [(2, fun _ => .nan), (0, fun _ => .fin 1)]

theorem C72_sparse_demo : LogitCase 3 demoTerms demoTheta sparseDemo (fun a => a = 0) (fun _ _ => 1) := by
  refine ⟨⟨fun h => by simp [sparseDemo] at h, fun rows hr => ?_, ?_⟩, ?_, ?_⟩
  · have hr' : rows = [(2, fun _ => .nan), (0, fun _ => .fin 1)] := by
      simp only [sparseDemo, Option.some.injEq] at hr; exact hr.symm
    subst hr'
    refine ⟨by simp, fun a ha => ⟨?_, ?_⟩⟩
    · have : a = 0 ∨ a = 1 ∨ a = 2 := by omega
      rcases this with rfl | rfl | rfl <;> simp [sparseDemo]
    · intro row hrow hA t _
      have ha0 : a = 0 := by simpa using hA
      subst ha0
      simp at hrow
      rw [hrow]
  · intro t ht
    simp [demoTerms] at ht
    subst ht
    exact ⟨by norm_num, fun _ d hd => by simp at hd⟩
  · intro _ a _ _
    simp [size, demoTerms]
    exact Real.exp_pos _
  · intro a ha hA
    have ha0 : a = 0 := by simpa using hA
    subst ha0
    have hu : utility demoTerms demoTheta (coReal sparseDemo) (fun _ _ => 1) 0 = 2 := by
      simp [utility, demoTerms, demoTheta, sizeScale, size]; norm_num
    rw [hu]; norm_num

example : (mnlCase 3 demoTerms (fun _ => false) demoTheta sparseDemo).probability 0 = .fin 1 := by
  rw [(C72_probability C72_sparse_demo (fun _ => false) ⟨0, by norm_num, rfl⟩).1 0 (by norm_num)]
  congr 1
  have := (C72_probability C72_sparse_demo (fun _ => false) ⟨0, by norm_num, rfl⟩).2
  simp only [Finset.sum_range_succ, Finset.range_zero, Finset.sum_empty] at this
  have h1 : logitProb 3 (fun a => decide (a = 0)) (utility demoTerms demoTheta (coReal sparseDemo) fun _ _ => 1) 1 = 0 := by
    simp [logitProb]
  have h2 : logitProb 3 (fun a => decide (a = 0)) (utility demoTerms demoTheta (coReal sparseDemo) fun _ _ => 1) 2 = 0 := by
    simp [logitProb]
  rw [h1, h2] at this
  linarith

theorem dup_logit (θ : Nat → ℝ) (hθ : |θ 0| ≤ 1) : LogitCase 2 dupTerms θ dupCase dupCase.av (caReal dupCase) := by
  obtain ⟨h1, h2⟩ := offers_of_dense (dup_dense θ)
  refine ⟨h1, h2, fun a _ _ => ?_⟩
  have hu : utility dupTerms θ (coReal dupCase) (caReal dupCase) a =
      θ 0 + Real.log (2 * (if a = 0 then 1 else 2)) := by
    unfold utility
    rw [dup_size]
    have : Real.log (2 * Real.exp (θ 0) * (if a = 0 then 1 else 2)) = θ 0 + Real.log (2 * (if a = 0 then 1 else 2)) := by
      rw [show (2 * Real.exp (θ 0) * (if a = 0 then 1 else 2) : ℝ) = Real.exp (θ 0) * (2 * (if a = 0 then 1 else 2)) by ring,
        Real.log_mul (ne_of_gt (Real.exp_pos _)) (by split_ifs <;> norm_num), Real.log_exp]
    simp [dupTerms, sizeScale] at this ⊢
    rw [this]
  rw [hu]
  have hl : |Real.log (2 * (if a = 0 then 1 else 2))| ≤ 4 := by
    have h0 : 0 ≤ Real.log (2 * (if a = 0 then 1 else 2)) := Real.log_nonneg (by split_ifs <;> norm_num)
    rw [abs_of_nonneg h0]
    refine le_trans (Real.log_le_sub_one_of_pos (by split_ifs <;> norm_num)) (by split_ifs <;> norm_num)
  calc |θ 0 + Real.log (2 * (if a = 0 then 1 else 2))| ≤ |θ 0| + |Real.log (2 * (if a = 0 then 1 else 2))| := abs_add_le _ _
    _ ≤ 5 := by linarith
    _ < 10 ^ 38 := by norm_num

/-- **C72 violated (a parameter in two quantity terms).** The log likelihood does not depend on the parameter near 0 but the
gradient returned is 1/6. -/
theorem C72_fails_duplicate_quantity :
    (∀ t : ℝ, |t| ≤ 1 → (mnlCase 2 dupTerms (fun _ => false) (update (fun _ => 0) 0 t) dupCase).ll = .fin (-Real.log 3)) ∧
    (mnlCase 2 dupTerms (fun _ => false) (fun _ => 0) dupCase).dll 0 = .fin (1 / 6) := by
  have hch : ∀ a < 2, dupCase.ch a ≠ 0 → dupCase.av a = true := fun _ _ _ => rfl
  have hu : ∀ θ a, Real.exp (utility dupTerms θ (coReal dupCase) (caReal dupCase) a) =
      2 * Real.exp (θ 0) * (if a = 0 then 1 else 2) := by
    intro θ a
    have : utility dupTerms θ (coReal dupCase) (caReal dupCase) a = Real.log (2 * Real.exp (θ 0) * (if a = 0 then 1 else 2)) := by
      unfold utility
      rw [dup_size]
      simp [dupTerms, sizeScale]
    rw [this, Real.exp_log (by split_ifs <;> positivity)]
  have hP : ∀ θ a, logitProb 2 dupCase.av (utility dupTerms θ (coReal dupCase) (caReal dupCase)) a = if a = 0 then 1 / 3 else 2 / 3 := by
    intro θ a
    unfold logitProb expSum
    simp only [hu, Finset.sum_range_succ, Finset.range_zero, Finset.sum_empty]
    have he := Real.exp_pos (θ 0)
    have hav : ∀ b, dupCase.av b = true := fun _ => rfl
    simp only [hav, if_true, one_ne_zero, if_false]
    by_cases h0 : a = 0
    · simp only [h0, if_true]; field_simp; ring
    · simp only [h0, if_false]; field_simp; ring
  constructor
  · intro t ht
    rw [C72_loglike (dup_logit (update (fun _ => 0) 0 t) (by simpa using ht)) _ hch]
    congr 1
    unfold logitLL
    simp only [hP, Finset.sum_range_succ, Finset.range_zero, Finset.sum_empty]
    simp [dupCase]
  · rw [(LogitCase.grad (dup_logit (fun _ => 0) (by simp)) _ ⟨0, by norm_num, rfl⟩ hch).1 0]
    congr 1
    have hcc : ∀ a, codeCoef (fun _ => false) dupTerms (fun _ => 0) (coReal dupCase) (caReal dupCase) a 0 =
        1 / (2 * (if a = 0 then 1 else 2)) := by
      intro a
      unfold codeCoef codeSizeCoef
      have hf : dupTerms.q.filter (fun t => t.param = 0) = dupTerms.q := rfl
      have hne : dupTerms.q ≠ [] := by simp [dupTerms]
      have ho : occ dupTerms.q 0 = 2 := rfl
      rw [hf, dup_size, if_neg hne, ho]
      simp only [Bool.false_eq_true, if_false, Real.exp_zero]
      simp [dupTerms, sizeScale, linCoef]
      split_ifs <;> norm_num
    have hav : ∀ b, dupCase.av b = true := fun _ => rfl
    unfold codeScore
    simp only [hP, hcc, hav, if_true, Finset.sum_range_succ, Finset.range_zero, Finset.sum_empty]
    simp [dupCase]
    norm_num

/-! ## C73 -/

/-- **C73 (reported utilities), without utilities above 500.** -/
theorem C73_utility_partial (h : LogitCase n M θ C A x) (hold : Nat → Bool)
    (hle : ∀ a < n, A a = true → utility M θ (coReal C) x a ≤ 500) :
    ∀ a < n, (mnlCase n M hold θ C).utility a = if A a = true then .fin (utility M θ (coReal C) x a) else .ninf := by
  intro a ha
  have hs : shiftV n A (utility M θ (coReal C) x) = 0 := by
    unfold shiftV
    rw [if_neg]
    obtain ⟨_, _, h3⟩ := maxV_spec n A (utility M θ (coReal C) x)
    rcases h3 with h3 | ⟨b, hb, hB, h3⟩
    · rw [h3]; norm_num
    · rw [h3]; exact not_lt.mpr (hle b hb hB)
  have := (assemble_real h.offers h.size hold).1 a ha
  rw [hs, sub_zero] at this
  exact this

/-- **C73 (what is reported otherwise).** When some offered utility exceeds 500, every reported utility is the declared one
less the largest. -/
theorem C73_utility_shifted (h : LogitCase n M θ C A x) (hold : Nat → Bool) {b : Nat} (hb : b < n) (hB : A b = true)
    (hmax : ∀ a < n, A a = true → utility M θ (coReal C) x a ≤ utility M θ (coReal C) x b)
    (hgt : 500 < utility M θ (coReal C) x b) :
    ∀ a < n, A a = true → (mnlCase n M hold θ C).utility a = .fin (utility M θ (coReal C) x a - utility M θ (coReal C) x b) := by
  intro a ha hA
  obtain ⟨_, h2, h3⟩ := maxV_spec n A (utility M θ (coReal C) x)
  have hm : maxV n A (utility M θ (coReal C) x) = utility M θ (coReal C) x b := by
    apply le_antisymm
    · rcases h3 with h3 | ⟨c, hc, hCc, h3⟩
      · rw [h3]; linarith
      · rw [h3]; exact hmax c hc hCc
    · exact h2 b hb hB
  have := (assemble_real h.offers h.size hold).1 a ha
  rw [show shiftV n A (utility M θ (coReal C) x) = utility M θ (coReal C) x b by
    unfold shiftV; rw [hm, if_pos hgt]] at this
  rw [show (mnlCase n M hold θ C).utility a = (Compiled.assemble θ hold n M C).U a from rfl, this]
  simp [emb, hA]

/-- One constant (parameter 0) on alternative 0, two alternatives. -/
noncomputable def constTerms : Terms where
  q := []
  qScale := none
  ca := []
  co := [⟨0, 1, 0, none⟩]

theorem const_logit (θ : Nat → ℝ) (hθ : |θ 0| < 10 ^ 38) : LogitCase 2 constTerms θ (plainCase 0) (fun _ => true) (fun _ _ => 0) := by
  refine ⟨⟨fun _ a _ => ⟨rfl, fun _ t ht => by simp [constTerms] at ht⟩, fun rows hr => by simp [plainCase] at hr, ?_⟩, ?_, ?_⟩
  · intro t ht
    simp [constTerms] at ht
    subst ht
    exact ⟨by norm_num, fun _ d hd => by simp at hd⟩
  · intro hq; exact absurd rfl hq
  · intro a _ _
    by_cases h0 : a = 0
    · subst h0; simpa [utility, constTerms, coValue] using hθ
    · have : ¬ (0 = a) := fun hh => h0 hh.symm
      simp [utility, constTerms, this]

theorem const_utility (θ : Nat → ℝ) (a : Nat) :
    utility constTerms θ (coReal (plainCase 0)) (fun _ _ => 0) a = if a = 0 then θ 0 else 0 := by
  by_cases h0 : a = 0
  · subst h0; simp [utility, constTerms, coValue]
  · have : ¬ (0 = a) := fun hh => h0 hh.symm
    simp [utility, constTerms, this, h0]

/-- **C73 violated (utilities).** With utilities 501 and 0 the reported utilities are 0 and -501; with utilities 500 and 0 they
are reported as declared. -/
theorem C73_fails_utility :
    (mnlCase 2 constTerms (fun _ => false) (fun _ => 501) (plainCase 0)).utility 0 = .fin 0 ∧
    (mnlCase 2 constTerms (fun _ => false) (fun _ => 501) (plainCase 0)).utility 1 = .fin (-501) ∧
    (mnlCase 2 constTerms (fun _ => false) (fun _ => 500) (plainCase 0)).utility 0 = .fin 500 := by
  have h1 := const_logit (fun _ => 501) (by rw [abs_of_pos] <;> norm_num)
  have h2 := const_logit (fun _ => 500) (by rw [abs_of_pos] <;> norm_num)
  have hs := C73_utility_shifted h1 (fun _ => false) (b := 0) (by norm_num) rfl
    (fun a _ _ => by rw [const_utility, const_utility]; by_cases h0 : a = 0 <;> simp [h0])
    (by rw [const_utility]; norm_num)
  refine ⟨?_, ?_, ?_⟩
  · rw [hs 0 (by norm_num) rfl]; simp
  · rw [hs 1 (by norm_num) rfl, const_utility, const_utility]; simp
  · rw [C73_utility_partial h2 _ (fun a _ _ => by rw [const_utility]; split_ifs <;> norm_num) 0 (by norm_num), const_utility]
    simp

/-- **C73 (logsums).** `logsums()` reports the log of the sum of exponentiated declared utilities of the offered alternatives,
when no offered utility exceeds 500. -/
theorem C73_logsum_partial (h : LogitCase n M θ C A x) (hold : Nat → Bool) (ho : ∃ a < n, A a = true)
    (hle : ∀ a < n, A a = true → utility M θ (coReal C) x a ≤ 500) :
    mnlLogsums θ hold n M C none = .fin (Real.log (expSum n A (utility M θ (coReal C) x))) := by
  have hU : ∀ a < n, (Compiled.assemble θ hold n M C).U a = emb (A a = true) (utility M θ (coReal C) x a) :=
    C73_utility_partial h hold hle
  have hp := expSum_pos (utility M θ (coReal C) x) ho
  have hb : ∀ a < n, A a = true → tiny < utility M θ (coReal C) x a := by
    intro a ha hA
    have := neg_lt_of_abs_lt (h.moderate a ha hA)
    refine lt_of_le_of_lt ?_ this
    unfold tiny; norm_num
  unfold mnlLogsums mnlLogsum
  simp only [if_true]
  rw [sum_fold_gen n (fun a => if A a = true then Real.exp (utility M θ (coReal C) x a) else 0)]
  · rw [show (∑ a ∈ Finset.range n, if A a = true then Real.exp (utility M θ (coReal C) x a) else 0) =
      expSum n A (utility M θ (coReal C) x) from rfl,
      if_neg (show ¬ X.fin (expSum n A (utility M θ (coReal C) x)) = 0 from fun hh => ne_of_gt hp (X.fin_inj.mp hh))]
    exact X.log_fin hp
  · intro a ha s
    rw [hU a ha]
    unfold emb
    by_cases hA : A a = true
    · simp only [hA, if_true]
      rw [if_pos ((X.fin_gt_fin _ _).mpr (hb a ha hA)), X.exp_fin, X.fin_add]
    · simp only [hA, if_false, X.not_ninf_gt, Bool.false_eq_true, add_zero]

/-- **C73 (logsums with a logsum parameter).** With a logsum parameter of value `m ≠ 0, 1` the result is
`m * log (∑ exp (V / m))`. -/
theorem C73_logsum_mu_partial (h : LogitCase n M θ C A x) (hold : Nat → Bool) (ho : ∃ a < n, A a = true)
    (hle : ∀ a < n, A a = true → utility M θ (coReal C) x a ≤ 500) (p : Nat) (hp0 : θ p ≠ 0) (hp1 : θ p ≠ 1) :
    mnlLogsums θ hold n M C (some p) =
      .fin (θ p * Real.log (expSum n A (fun a => utility M θ (coReal C) x a / θ p))) := by
  have hU : ∀ a < n, (Compiled.assemble θ hold n M C).U a = emb (A a = true) (utility M θ (coReal C) x a) :=
    C73_utility_partial h hold hle
  have hp := expSum_pos (fun a => utility M θ (coReal C) x a / θ p) ho
  have hb : ∀ a < n, A a = true → tiny < utility M θ (coReal C) x a := by
    intro a ha hA
    have := neg_lt_of_abs_lt (h.moderate a ha hA)
    refine lt_of_le_of_lt ?_ this
    unfold tiny; norm_num
  unfold mnlLogsums mnlLogsumMu
  simp only [if_neg hp1, if_neg hp0]
  rw [sum_fold_gen n (fun a => if A a = true then Real.exp (utility M θ (coReal C) x a / θ p) else 0)]
  · rw [show (∑ a ∈ Finset.range n, if A a = true then Real.exp (utility M θ (coReal C) x a / θ p) else 0) =
      expSum n A (fun a => utility M θ (coReal C) x a / θ p) from rfl,
      if_neg (show ¬ X.fin (expSum n A (fun a => utility M θ (coReal C) x a / θ p)) = 0 from
        fun hh => ne_of_gt hp (X.fin_inj.mp hh)), X.log_fin hp, X.fin_mul, mul_comm]
  · intro a ha s
    rw [hU a ha]
    unfold emb
    by_cases hA : A a = true
    · simp only [hA, if_true]
      rw [if_pos ((X.fin_gt_fin _ _).mpr (hb a ha hA)), X.fin_div hp0, X.exp_fin, X.fin_add]
    · simp only [hA, if_false, X.not_ninf_gt, Bool.false_eq_true, add_zero]

/-- **C73 violated (logsums).** With utilities 501 and 0 the declared logsum exceeds 501, the reported one is below 1. -/
theorem C73_fails_logsum : ∃ r, mnlLogsums (fun _ => 501) (fun _ => false) 2 constTerms (plainCase 0) none = .fin r ∧ r < 1 ∧
    501 < Real.log (expSum 2 (fun _ => true) (utility constTerms (fun _ => 501) (coReal (plainCase 0)) (fun _ _ => 0))) := by
  obtain ⟨h1, h2, _⟩ := C73_fails_utility
  have h1' : (Compiled.assemble (fun _ => 501) (fun _ => false) 2 constTerms (plainCase 0)).U 0 = .fin 0 := h1
  have h2' : (Compiled.assemble (fun _ => 501) (fun _ => false) 2 constTerms (plainCase 0)).U 1 = .fin (-501) := h2
  refine ⟨Real.log (1 + Real.exp (-501)), ?_, ?_, ?_⟩
  · unfold mnlLogsums mnlLogsum
    simp only [if_true]
    rw [sum_fold_gen 2 (fun a => if a = 0 then 1 else Real.exp (-501))]
    · have hp : (0 : ℝ) < 1 + Real.exp (-501) := by positivity
      rw [show ∑ a ∈ Finset.range 2, (if a = 0 then (1 : ℝ) else Real.exp (-501)) = 1 + Real.exp (-501) by
        simp [Finset.sum_range_succ]]
      rw [if_neg (show ¬ X.fin _ = 0 from fun hh => ne_of_gt hp (X.fin_inj.mp hh))]
      exact X.log_fin hp
    · intro a ha s
      have : a = 0 ∨ a = 1 := by omega
      have ht : tiny < -501 := by unfold tiny; norm_num
      rcases this with rfl | rfl
      · rw [h1', if_pos ((X.fin_gt_fin _ _).mpr (by linarith)), X.exp_fin, X.fin_add]; simp
      · rw [h2', if_pos ((X.fin_gt_fin _ _).mpr ht), X.exp_fin, X.fin_add]; simp
  · have hlt : Real.exp (-501) < 1 := by rw [Real.exp_lt_one_iff]; norm_num
    have hpos := Real.exp_pos (-501)
    have := Real.log_lt_sub_one_of_pos (x := 1 + Real.exp (-501)) (by positivity) (by linarith)
    linarith
  · rw [show (501 : ℝ) = Real.log (Real.exp 501) by rw [Real.log_exp]]
    apply Real.log_lt_log (Real.exp_pos _)
    unfold expSum
    simp only [const_utility, Finset.sum_range_succ, Finset.range_zero, Finset.sum_empty, if_true]
    simp

example := C73_logsum_partial C72_demo (fun _ => false) ⟨0, by norm_num, rfl⟩
  (fun a ha hA => by
    have ha2 : a ≤ 1 := by simpa [demoCase] using hA
    have : a = 0 ∨ a = 1 := by omega
    rcases this with rfl | rfl <;>
    simp [utility, demoTerms, demoTheta, sizeScale, size, caReal, demoCase, coValue] <;> norm_num)

example := C73_logsum_mu_partial C72_demo (fun _ => false) ⟨0, by norm_num, rfl⟩
  (fun a ha hA => by
    have ha2 : a ≤ 1 := by simpa [demoCase] using hA
    have : a = 0 ∨ a = 1 := by omega
    rcases this with rfl | rfl <;>
    simp [utility, demoTerms, demoTheta, sizeScale, size, caReal, demoCase, coValue] <;> norm_num) 1
  (by norm_num [demoTheta]) (by norm_num [demoTheta])

end Larch.Props
