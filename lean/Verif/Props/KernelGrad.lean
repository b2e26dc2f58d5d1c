import Verif.Lemmas.KernelHold
import Verif.Props.KernelProb
import Mathlib.Analysis.Complex.ExponentialBounds

/-!
# C05, C06, C07: gradient, BHHH and held-fast parameters
-/

namespace Larch.Props

open Function Larch Larch.Kernel Larch.Spec
open scoped BigOperators
open Classical

/-! ## C05 -/

/-- **C05 (within the conditions under which the code is right).** For every free parameter `p` the gradient
entry returned with the log likelihood is the partial derivative of the returned log likelihood.

Missing from the full statement, because the code violates it there (see the three `C05_fails_…` theorems):
a logsum parameter shared by a nest and a descendant of it or used in a utility function, a logsum
parameter on the root node, and a parameter occurring in two quantity terms.  Also required: chosen
alternatives are available with probability at least `1e-250` (below that the code deliberately
divides by the floor `1e-250`), and choices are non-negative. -/
theorem C05_gradient_is_derivative_partial {T : Tree} {M : Terms} {θ : Nat → ℝ} {C : Case}
    (hD : DenseCase T M θ C) (hold : Nat → Bool) (W : Work) (p : Nat) (hp : hold p = false)
    (hq : (M.q.filter (fun t => t.param = p)).length ≤ 1)
    (hroot : T.muSlot (T.nNodes - 1 - T.nAlts) ≠ some p)
    (hsep : SeparateLogsums T M)
    (hch : ∀ a < T.nAlts, C.ch a ≠ 0 → C.av a = true) (hch0 : ∀ a < T.nAlts, 0 ≤ C.ch a)
    (hpos : ∀ a < T.nAlts, C.ch a ≠ 0 → 1 / 10 ^ 250 ≤ caseProb T M θ C a) :
    ∃ (f : ℝ → ℝ) (g : ℝ),
      (∀ᶠ t in nhds (θ p), (runCase T M hold (update θ p t) C W).loglike = .fin (f t)) ∧
      (runCase T M hold θ C W).dLoglike p = .fin g ∧ HasDerivAt f g (θ p) := by
  refine ⟨fun t => caseLoglike T M (update θ p t) C, _, ?_, (run_grad hD hold W hch hpos).1 p,
    caseLoglike_hasDeriv hD hold p hp hq hroot hsep hch hch0⟩
  filter_upwards [denseCase_eventually hD p] with t ht
  exact run_loglike ht hold W hch

theorem demo_prob_large : ∀ a < demoTree.nAlts, demoCase.ch a ≠ 0 →
    1 / 10 ^ 250 ≤ caseProb demoTree demoTerms demoTheta demoCase a := by
  intro a ha hc
  have h0 : a = 0 := by
    by_contra h
    exact hc (by simp [demoCase, h])
  subst h0
  have h := demoTree_wf
  have hav : ∀ c, c < 2 → (shapeOf demoTree demoCase.av).avail c := by
    intro c hc
    exact (avail_alt _ (show c < 3 by omega)).mpr (by simp [demoCase]; omega)
  have hu0 : utility demoTerms demoTheta (coReal demoCase) (caReal demoCase) 0 = 2 := by
    simp [utility, demoTerms, demoTheta, sizeScale, size, caReal, demoCase]; norm_num
  have hu1 : utility demoTerms demoTheta (coReal demoCase) (caReal demoCase) 1 = 3 := by
    simp [utility, demoTerms, demoTheta, sizeScale, size, caReal, demoCase, coValue]; norm_num
  have h3 : (shapeOf demoTree demoCase.av).avail 3 :=
    (avail_nest h _ (by decide)).mpr ⟨0, by decide, hav 0 (by omega)⟩
  have h2 : ¬ (shapeOf demoTree demoCase.av).avail 2 := by
    rw [avail_alt _ (by decide)]; simp [demoCase]
  -- root probability 1, nest probability 1
  have hk4 : kids demoTree 4 = [2, 3] := by decide
  have hk3 : kids demoTree 3 = [0, 1] := by decide
  have p3 : caseProb demoTree demoTerms demoTheta demoCase 3 = 1 := by
    unfold caseProb
    rw [prob_edge h _ _ _ (show (4, 3) ∈ demoTree.edges by decide), if_pos h3, denom_eq h, hk4]
    simp only [List.map_cons, List.map_nil, h2, h3, if_true, if_false, List.sum_cons, List.sum_nil, zero_add,
      add_zero]
    rw [div_self (ne_of_gt (Real.exp_pos _)), mul_one]
    exact prob_root _ _ _
  unfold caseProb at p3 ⊢
  rw [prob_edge h _ _ _ (show (3, 0) ∈ demoTree.edges by decide), if_pos (hav 0 (by omega)), p3, one_mul,
    denom_eq h, hk3]
  simp only [List.map_cons, List.map_nil, hav 0 (by omega), hav 1 (by omega), if_true, List.sum_cons,
    List.sum_nil, add_zero]
  rw [value_alt _ _ _ (by decide), value_alt _ _ _ (by decide), hu0, hu1]
  have hm : muN demoTree demoTheta 3 = 1 / 2 := by simp [muN, demoTree, demoTheta]
  rw [hm]
  have e1 : Real.exp (3 / (1 / 2)) = Real.exp (2 / (1 / 2)) * Real.exp 2 := by
    rw [← Real.exp_add]; norm_num
  have he : Real.exp 2 < 9 := by
    have h1 : Real.exp 2 = Real.exp 1 * Real.exp 1 := by rw [← Real.exp_add]; norm_num
    have h2 := Real.exp_one_lt_d9
    have h3 := Real.exp_pos 1
    rw [h1]; nlinarith
  have hx := Real.exp_pos (2 / (1 / 2))
  rw [e1, le_div_iff₀ (by positivity)]
  have h10 : (1 : ℝ) / 10 ^ 250 ≤ 1 / 10 := by norm_num
  calc 1 / 10 ^ 250 * (Real.exp (2 / (1 / 2)) + Real.exp (2 / (1 / 2)) * Real.exp 2)
      ≤ 1 / 10 * (Real.exp (2 / (1 / 2)) + Real.exp (2 / (1 / 2)) * Real.exp 2) := by
        apply mul_le_mul_of_nonneg_right h10; positivity
    _ ≤ Real.exp (2 / (1 / 2)) := by nlinarith

/-- The conditions are met by the demonstration case for its utility, quantity and logsum parameters. -/
example (W : Work) (p : Nat) (hp : p = 0 ∨ p = 1 ∨ p = 2 ∨ p = 3) :=
  C05_gradient_is_derivative_partial demo_dense (fun _ => false) W p rfl
    (by rcases hp with rfl | rfl | rfl | rfl <;> simp [demoTerms])
    (by simp [demoTree]) demo_separate demo_chosen demo_nonneg demo_prob_large

/-! ### Where the gradient is wrong -/

/-- Nest 3 = {0, 1} inside nest 4 = {3}, both with logsum parameter 0; root 5 = {2, 4}. -/
def sharedTree : Tree where
  nAlts := 3
  nNodes := 6
  edges := [(3, 0), (3, 1), (4, 3), (5, 2), (5, 4)]
  muSlot k := if k < 2 then some 0 else none
  start k := if k = 0 then 0 else if k = 1 then 2 else 3
  len k := if k = 1 then 1 else 2

theorem sharedTree_wf : sharedTree.WF where
  root := by decide
  edge := by decide
  sorted := by decide
  oneParent := by decide
  covered := by
    intro n hn
    have : n + 1 < 6 := hn
    have : n = 0 ∨ n = 1 ∨ n = 2 ∨ n = 3 ∨ n = 4 := by omega
    rcases this with rfl | rfl | rfl | rfl | rfl
    · exact ⟨3, by decide⟩
    · exact ⟨3, by decide⟩
    · exact ⟨5, by decide⟩
    · exact ⟨4, by decide⟩
    · exact ⟨5, by decide⟩
  slots := by
    intro k hk
    have : 3 + k < 6 := hk
    have : k = 0 ∨ k = 1 ∨ k = 2 := by omega
    rcases this with rfl | rfl | rfl <;> decide

/-- Everything available, alternative `a0` chosen, no data needed. -/
noncomputable def plainCase (a0 : Nat) : Case where
  ch a := if a = a0 then 1 else 0
  av _ := true
  wt := 1
  co _ := 0
  ca _ _ := 0
  ce := none

theorem plain_dense {T : Tree} (h : T.WF) (θ : Nat → ℝ) (a0 : Nat)
    (hmu : ∀ n, T.nAlts ≤ n → n < T.nNodes → 0 < muN T θ n) : DenseCase T noTerms θ (plainCase a0) where
  wf := h
  dense := rfl
  mu := hmu
  data := ⟨fun _ _ _ t ht => by simp [noTerms] at ht, fun t ht => by simp [noTerms] at ht⟩
  size := fun hq => absurd rfl hq
  co := fun t ht => by simp [noTerms] at ht

theorem shared_muN (θ : Nat → ℝ) : muN sharedTree θ 3 = θ 0 ∧ muN sharedTree θ 4 = θ 0 ∧
    muN sharedTree θ 5 = 1 := by
  refine ⟨rfl, rfl, rfl⟩

theorem plain_avail (T : Tree) (h : T.WF) (a0 : Nat) : ∀ n < T.nNodes, (∀ m, T.nAlts ≤ m → m < T.nNodes →
    kids T m ≠ []) → (shapeOf T (plainCase a0).av).avail n := by
  intro n
  induction n using Nat.strong_induction_on with
  | _ n ih =>
    intro hn hk
    by_cases ha : n < T.nAlts
    · exact (avail_alt _ ha).mpr rfl
    · obtain ⟨c, hc⟩ := List.exists_mem_of_ne_nil _ (hk n (by omega) hn)
      have hlt := h.kids_lt hc
      exact (avail_nest h _ (by omega)).mpr ⟨c, hc, ih c hlt (by omega) hk⟩

theorem shared_value (θ : Nat → ℝ) (a0 : Nat) (h0 : 0 < θ 0) :
    caseValue sharedTree noTerms θ (plainCase a0) 3 = θ 0 * Real.log 2 ∧
    caseValue sharedTree noTerms θ (plainCase a0) 4 = θ 0 * Real.log 2 ∧
    caseValue sharedTree noTerms θ (plainCase a0) 5 = Real.log (1 + Real.exp (θ 0 * Real.log 2)) := by
  have h := sharedTree_wf
  have hav := fun n (hn : n < 6) => plain_avail sharedTree h a0 n hn (by
    intro m h1 h2
    have h1 : 3 ≤ m := h1
    have h2 : m < 6 := h2
    have : m = 3 ∨ m = 4 ∨ m = 5 := by omega
    rcases this with rfl | rfl | rfl <;> decide)
  obtain ⟨m3, m4, m5⟩ := shared_muN θ
  have hk3 : kids sharedTree 3 = [0, 1] := by decide
  have hk4 : kids sharedTree 4 = [3] := by decide
  have hk5 : kids sharedTree 5 = [2, 4] := by decide
  have hu : ∀ a, utility noTerms θ (coReal (plainCase a0)) (caReal (plainCase a0)) a = 0 := by
    intro a; simp [utility, noTerms]
  have v3 : caseValue sharedTree noTerms θ (plainCase a0) 3 = θ 0 * Real.log 2 := by
    unfold caseValue
    rw [value_nest h _ _ _ (by decide), hk3, m3]
    simp only [List.map_cons, List.map_nil, hav 0 (by omega), hav 1 (by omega), if_true]
    rw [value_alt _ _ _ (by decide), value_alt _ _ _ (by decide), hu, hu]
    norm_num
  have v4 : caseValue sharedTree noTerms θ (plainCase a0) 4 = θ 0 * Real.log 2 := by
    rw [← v3]
    unfold caseValue
    rw [value_nest h _ _ _ (by decide), hk4, m4]
    simp only [List.map_cons, List.map_nil, hav 3 (by omega), if_true, List.sum_cons, List.sum_nil, add_zero,
      Real.log_exp]
    field_simp
  refine ⟨v3, v4, ?_⟩
  unfold caseValue at v4 ⊢
  rw [value_nest h _ _ _ (by decide), hk5, m5]
  simp only [List.map_cons, List.map_nil, hav 2 (by omega), hav 4 (by omega), if_true, List.sum_cons,
    List.sum_nil, add_zero]
  rw [v4, value_alt _ _ _ (by decide), hu]
  simp

theorem slotIs_shared (n : Nat) : slotIs sharedTree n 0 ↔ n - 3 < 2 := by
  unfold slotIs sharedTree
  simp

/-- **C05 violated (shared logsum parameter).** Nest 4 contains nest 3 and both use the same logsum parameter
(value 1/2, equal utilities, alternative 2 outside the nests chosen).  The returned gradient is exactly twice
the derivative of the returned log likelihood, and is not zero. -/
theorem C05_fails_shared_logsum (W : Work) :
    ∃ (f : ℝ → ℝ) (f' : ℝ),
      (∀ᶠ t in nhds (1 / 2 : ℝ), (runCase sharedTree noTerms (fun _ => false)
        (update (fun _ => 1 / 2) 0 t) (plainCase 2) W).loglike = .fin (f t)) ∧
      HasDerivAt f f' (1 / 2) ∧ f' ≠ 0 ∧
      (runCase sharedTree noTerms (fun _ => false) (fun _ => 1 / 2) (plainCase 2) W).dLoglike 0 =
        .fin (2 * f') := by
  have h := sharedTree_wf
  set θ : Nat → ℝ := fun _ => 1 / 2 with hθ
  have hD : DenseCase sharedTree noTerms θ (plainCase 2) := plain_dense h θ 2 (by
    intro n h1 h2
    have h1 : 3 ≤ n := h1
    have h2 : n < 6 := h2
    obtain ⟨m3, m4, m5⟩ := shared_muN θ
    have : n = 3 ∨ n = 4 ∨ n = 5 := by omega
    rcases this with rfl | rfl | rfl <;> simp only [m3, m4, m5] <;> norm_num [hθ])
  have hch : ∀ a < sharedTree.nAlts, (plainCase 2).ch a ≠ 0 → (plainCase 2).av a = true := fun _ _ _ => rfl
  have hav := fun n (hn : n < 6) => plain_avail sharedTree h 2 n hn (by
    intro m h1 h2
    have h1 : 3 ≤ m := h1
    have h2 : m < 6 := h2
    have : m = 3 ∨ m = 4 ∨ m = 5 := by omega
    rcases this with rfl | rfl | rfl <;> decide)
  have hkids5 : kids sharedTree 5 = [2, 4] := by decide
  obtain ⟨v3, v4, v5⟩ := shared_value θ 2 (by norm_num [hθ])
  have v2 : caseValue sharedTree noTerms θ (plainCase 2) 2 = 0 := by
    unfold caseValue; rw [value_alt _ _ _ (by decide)]; simp [utility, noTerms]
  -- the log likelihood as a function of the parameter
  have hsum : ∀ P : Nat → ℝ, (∑ a ∈ Finset.range sharedTree.nAlts, (plainCase 2).ch a * P a) = P 2 := by
    intro P
    show ∑ a ∈ Finset.range 3, _ = _
    simp [plainCase]
  have hlogp : ∀ θ' : Nat → ℝ, 0 < θ' 0 → Real.log (caseProb sharedTree noTerms θ' (plainCase 2) 2) =
      -Real.log (1 + Real.exp (θ' 0 * Real.log 2)) := by
    intro θ' h0
    have := log_prob_edge h (plainCase 2).av (muN sharedTree θ')
      (utility noTerms θ' (coReal (plainCase 2)) (caReal (plainCase 2))) (p := 5) (c := 2)
      (by rw [(shared_muN θ').2.2]; norm_num) (by decide) (hav 2 (by omega))
    unfold caseProb
    rw [this, show (5 : Nat) = sharedTree.nNodes - 1 by decide, prob_root, Real.log_one, zero_add]
    have e5 : (shapeOf sharedTree (plainCase 2).av).value (muN sharedTree θ')
      (utility noTerms θ' (coReal (plainCase 2)) (caReal (plainCase 2))) (sharedTree.nNodes - 1) =
        Real.log (1 + Real.exp (θ' 0 * Real.log 2)) := (shared_value θ' 2 h0).2.2
    rw [e5, show sharedTree.nNodes - 1 = 5 by decide, (shared_muN θ').2.2, value_alt _ _ _ (by decide)]
    simp [utility, noTerms]
  set K := Real.exp (1 / 2 * Real.log 2) with hK
  have hKpos : 0 < K := Real.exp_pos _
  have hlog2 : 0 < Real.log 2 := Real.log_pos (by norm_num)
  refine ⟨fun t => -Real.log (1 + Real.exp (t * Real.log 2)), -(K * Real.log 2 / (1 + K)), ?_, ?_, ?_, ?_⟩
  · filter_upwards [denseCase_eventually hD 0, lt_mem_nhds (show (0 : ℝ) < 1 / 2 by norm_num)] with t ht hpos
    rw [run_loglike ht _ W hch]
    unfold caseLoglike Shape.loglike
    have e := hsum (fun a => Real.log (caseProb sharedTree noTerms (update θ 0 t) (plainCase 2) a))
    have e2 := hlogp (update θ 0 t) (by simpa using hpos)
    rw [e2] at e
    simp only [update_self] at e
    congr 1
    refine Eq.trans ?_ e
    exact one_mul _
  · have h1 : HasDerivAt (fun t : ℝ => t * Real.log 2) (Real.log 2) (1 / 2) := by
      simpa using (hasDerivAt_id (1 / 2 : ℝ)).mul_const (Real.log 2)
    have h2 := (h1.exp.const_add 1).log (by positivity)
    exact h2.neg
  · have : 0 < K * Real.log 2 / (1 + K) := by positivity
    intro h0; linarith
  · have hP2 : caseProb sharedTree noTerms θ (plainCase 2) 2 = 1 / (1 + K) := by
      have h1 := hlogp θ (by norm_num [hθ])
      have hpos : 0 < caseProb sharedTree noTerms θ (plainCase 2) 2 :=
        prob_pos h _ _ _ 2 (by decide) (hav 2 (by omega))
      have := congrArg Real.exp h1
      rw [Real.exp_log hpos, Real.exp_neg, Real.exp_log (by positivity)] at this
      rw [this, one_div]
    have hK2 : K < 2 := by
      have : K < Real.exp (1 * Real.log 2) := Real.exp_lt_exp.mpr (by nlinarith)
      rwa [one_mul, Real.exp_log (by norm_num)] at this
    have hpos : ∀ a < sharedTree.nAlts, (plainCase 2).ch a ≠ 0 →
        1 / 10 ^ 250 ≤ caseProb sharedTree noTerms θ (plainCase 2) a := by
      intro a _ hc
      have : a = 2 := by
        by_contra hne; exact hc (by simp [plainCase, hne])
      subst this
      rw [hP2]
      apply one_div_le_one_div_of_le (by positivity)
      have : (3 : ℝ) ≤ 10 ^ 250 := by norm_num
      linarith
    have hg := (run_grad hD (fun _ => false) W hch hpos).1 0
    rw [hg]
    have e := hsum (fun a => dPOf sharedTree noTerms (fun _ => false) θ (plainCase 2) a 0 /
      caseProb sharedTree noTerms θ (plainCase 2) a)
    rw [e]
    congr 1
    have hwt : (plainCase 2).wt = 1 := rfl
    rw [hwt, one_mul]
    -- rows computed by the code
    set V := caseValue sharedTree noTerms θ (plainCase 2) with hV
    set k := kOf sharedTree noTerms θ (plainCase 2) with hk
    set d0 := d0Of sharedTree noTerms (fun _ => false) θ (plainCase 2) with hd0
    set av := cascadeOr sharedTree (plainCase 2).av with hav'
    have havt : ∀ n < 6, av n = true := fun n hn => (cascadeOr_avail h _ n).mpr (hav n hn)
    have hd00 : ∀ n, d0 n 0 = 0 := by
      intro n
      simp [hd0, d0Of, codeCoef, codeSizeCoef, linCoef, noTerms]
    have v0 : V 0 = 0 := by
      rw [hV]; unfold caseValue; rw [value_alt _ _ _ (by decide)]; simp [utility, noTerms]
    have v1 : V 1 = 0 := by
      rw [hV]; unfold caseValue; rw [value_alt _ _ _ (by decide)]; simp [utility, noTerms]
    have k3 : k 3 = 1 := by
      rw [hk, kOf_edge h (show (4, 3) ∈ sharedTree.edges by decide), ← hV, v3, v4]; simp
    have k4 : k 4 = K / (1 + K) := by
      rw [hk, kOf_edge h (show (5, 4) ∈ sharedTree.edges by decide), ← hV, v4, v5, (shared_muN θ).2.2, div_one,
        Real.exp_sub, Real.exp_log (by positivity)]
    have k2 : k 2 = 1 / (1 + K) := by
      rw [hk, kOf_edge h (show (5, 2) ∈ sharedTree.edges by decide), ← hV, v2, v5, (shared_muN θ).2.2, div_one,
        Real.exp_sub, Real.exp_log (by positivity), Real.exp_zero]
    have alt0 : ∀ a < 3, codeG sharedTree θ av V k d0 a 0 = 0 := by
      intro a ha
      rw [codeG_eq, if_neg (show ¬ (sharedTree.nAlts ≤ a ∧ slotIs sharedTree a 0) from
        fun hh => absurd hh.1 (by show ¬ 3 ≤ a; omega))]
      unfold codeAcc
      rw [hd00, zero_add]
      apply Finset.sum_eq_zero
      intro c _
      rw [if_neg]
      rintro ⟨hc, _⟩
      have := (h.edge _ hc).2.1
      have : 3 ≤ a := this
      omega
    have acc : ∀ n, (∑ c : Fin n, if (n, (c : Nat)) ∈ sharedTree.edges ∧ av c = true then
        k c * codeG sharedTree θ av V k d0 c 0 - (if slotIs sharedTree n 0 then k c * V c else 0) else 0) =
        ((kids sharedTree n).map (fun c => if av c = true then
          k c * codeG sharedTree θ av V k d0 c 0 - (if slotIs sharedTree n 0 then k c * V c else 0) else 0)).sum := by
      intro n
      rw [sum_kids h n]
      apply Finset.sum_congr rfl
      intro c _
      by_cases h1 : (n, (c : Nat)) ∈ sharedTree.edges <;> by_cases h2 : av c = true <;> simp [h1, h2]
    have g3 : codeG sharedTree θ av V k d0 3 0 = Real.log 2 := by
      rw [codeG_eq, if_pos ⟨by decide, (slotIs_shared 3).mpr (by omega)⟩]
      unfold codeAcc
      rw [hd00, zero_add, acc 3, show kids sharedTree 3 = [0, 1] by decide]
      simp only [List.map_cons, List.map_nil, alt0 0 (by omega), alt0 1 (by omega), v0, v1]
      rw [v3]
      simp [hθ]
      ring
    have g4 : codeG sharedTree θ av V k d0 4 0 = 2 * Real.log 2 := by
      rw [codeG_eq, if_pos ⟨by decide, (slotIs_shared 4).mpr (by omega)⟩]
      unfold codeAcc
      rw [hd00, zero_add, acc 4, show kids sharedTree 4 = [3] by decide]
      simp only [List.map_cons, List.map_nil, g3, havt 3 (by omega), if_true, k3,
        if_pos ((slotIs_shared 4).mpr (by omega))]
      rw [v3, v4]
      simp [hθ]
      ring
    have r5 : codeRow sharedTree θ av V k d0 5 0 = K / (1 + K) * (2 * Real.log 2) := by
      unfold codeRow
      rw [if_pos (by decide)]
      unfold codeAcc
      rw [hd00, zero_add, acc 5, show kids sharedTree 5 = [2, 4] by decide]
      have hns : ¬ slotIs sharedTree 5 0 := by rw [slotIs_shared]; omega
      simp only [List.map_cons, List.map_nil, g4, alt0 2 (by omega), havt 2 (by omega), havt 4 (by omega), if_true,
        if_neg hns, k4, List.sum_cons, List.sum_nil]
      ring
    have r2 : codeRow sharedTree θ av V k d0 2 0 = 0 := by
      unfold codeRow
      rw [if_neg (by decide)]
      exact alt0 2 (by omega)
    have hch2 : cascadeSum sharedTree (plainCase 2).ch 2 ≠ 0 := by
      rw [cascadeSum_alt h _ (by decide)]; norm_num [plainCase]
    have hns : ¬ slotIs sharedTree 5 0 := by rw [slotIs_shared]; omega
    have hP5 : caseProb sharedTree noTerms θ (plainCase 2) 5 = 1 := prob_root _ _ _
    have : dPOf sharedTree noTerms (fun _ => false) θ (plainCase 2) 2 0 =
        -(K / (1 + K) * (2 * Real.log 2)) * (1 / (1 + K)) := by
      unfold dPOf
      rw [codeDP_edge h θ _ _ _ _ _ (show (5, 2) ∈ sharedTree.edges by decide) hch2, r2, r5, if_neg hns,
        hP5, (shared_muN θ).2.2, ← hk, k2, show (5 : Nat) = sharedTree.nNodes - 1 by decide, codeDP_root]
      ring
    rw [this, hP2]
    field_simp

/-- Two alternatives under a root that has a logsum parameter. -/
def rootMuTree : Tree := { flat2 with muSlot := fun _ => some 0 }

theorem rootMuTree_wf : rootMuTree.WF := ⟨flat2_wf.1, flat2_wf.2, flat2_wf.3, flat2_wf.4, flat2_wf.5, flat2_wf.6⟩

/-- What the code computes for two available alternatives directly below the root. -/
theorem flat_grad {T : Tree} {M : Terms} {θ : Nat → ℝ} {C : Case} (hD : DenseCase T M θ C)
    (hA : T.nAlts = 2) (hN : T.nNodes = 3) (hE : T.edges = [(2, 0), (2, 1)])
    (hav : C.av = fun _ => true) (hch : C.ch = fun a => if a = 0 then 1 else 0) (hwt : C.wt = 1)
    (hold : Nat → Bool) (W : Work) (p : Nat)
    (hpos : 1 / 10 ^ 250 ≤ caseProb T M θ C 0) :
    (runCase T M hold θ C W).dLoglike p = .fin (
      (codeCoef hold M θ (coReal C) (caReal C) 0 p -
        (∑ c ∈ Finset.range 2, (kOf T M θ C c * codeCoef hold M θ (coReal C) (caReal C) c p -
          if slotIs T 2 p then kOf T M θ C c * caseValue T M θ C c else 0)) +
        if slotIs T 2 p then (caseValue T M θ C 2 - caseValue T M θ C 0) / muN T θ 2 else 0) / muN T θ 2) := by
  have h := hD.wf
  have hchav : ∀ a < T.nAlts, C.ch a ≠ 0 → C.av a = true := fun _ _ _ => by rw [hav]
  have hk : kids T 2 = [0, 1] := by unfold kids; rw [hE]; decide
  have ha : ∀ n < 3, (shapeOf T C.av).avail n := by
    intro n hn
    by_cases h2 : n < 2
    · exact (avail_alt _ (by omega)).mpr (by rw [hav])
    · have : n = 2 := by omega
      subst this
      exact (avail_nest h _ (by omega)).mpr ⟨0, by rw [hk]; simp, (avail_alt _ (by omega)).mpr (by rw [hav])⟩
  have hpos' : ∀ a < T.nAlts, C.ch a ≠ 0 → 1 / 10 ^ 250 ≤ caseProb T M θ C a := by
    intro a _ hc
    have : a = 0 := by
      by_contra hne; exact hc (by rw [hch]; simp [hne])
    subst this; exact hpos
  rw [(run_grad hD hold W hchav hpos').1 p]
  congr 1
  have hsum : ∀ P : Nat → ℝ, (∑ a ∈ Finset.range T.nAlts, C.ch a * P a) = P 0 := by
    intro P; rw [hA, hch]; simp
  rw [hsum (fun a => dPOf T M hold θ C a p / caseProb T M θ C a), hwt, one_mul]
  have he0 : (2, 0) ∈ T.edges := by rw [hE]; simp
  have hch2 : cascadeSum T C.ch 0 ≠ 0 := by
    rw [cascadeSum_alt h _ (by omega), hch]; norm_num
  have alt0 : ∀ a < 2, codeG T θ (cascadeOr T C.av) (caseValue T M θ C) (kOf T M θ C) (d0Of T M hold θ C) a p =
      codeCoef hold M θ (coReal C) (caReal C) a p := by
    intro a ha2
    rw [codeG_eq, if_neg (by omega)]
    unfold codeAcc
    rw [Finset.sum_eq_zero, add_zero]
    · unfold d0Of; rw [if_pos ⟨by omega, by rw [hav]⟩]
    · intro c _
      rw [if_neg]
      rintro ⟨hc, _⟩
      have := (h.edge _ hc).2.1
      simp only at this
      omega
  have hr0 : codeRow T θ (cascadeOr T C.av) (caseValue T M θ C) (kOf T M θ C) (d0Of T M hold θ C) 0 p =
      codeCoef hold M θ (coReal C) (caReal C) 0 p := by
    unfold codeRow; rw [if_neg (by omega), alt0 0 (by omega)]
  have hr2 : codeRow T θ (cascadeOr T C.av) (caseValue T M θ C) (kOf T M θ C) (d0Of T M hold θ C) 2 p =
      ∑ c ∈ Finset.range 2, (kOf T M θ C c * codeCoef hold M θ (coReal C) (caReal C) c p -
          if slotIs T 2 p then kOf T M θ C c * caseValue T M θ C c else 0) := by
    unfold codeRow
    rw [if_pos (by omega)]
    unfold codeAcc
    have : d0Of T M hold θ C 2 p = 0 := by unfold d0Of; rw [if_neg (by omega)]
    rw [this, zero_add, ← Fin.sum_univ_eq_sum_range (fun c => kOf T M θ C c *
      codeCoef hold M θ (coReal C) (caReal C) c p -
          if slotIs T 2 p then kOf T M θ C c * caseValue T M θ C c else 0) 2]
    apply Finset.sum_congr rfl
    intro c _
    rw [if_pos, alt0 c c.2]
    refine ⟨?_, (cascadeOr_avail h _ _).mpr (ha c (by have := c.2; omega))⟩
    rw [hE]
    have := c.2
    have : (c : Nat) = 0 ∨ (c : Nat) = 1 := by omega
    rcases this with h0 | h0 <;> rw [h0] <;> simp
  have hP2 : caseProb T M θ C 2 = 1 := by
    have := prob_root (T := T) C.av (muN T θ) (utility M θ (coReal C) (caReal C))
    rw [hN] at this; exact this
  have hP0 : caseProb T M θ C 0 = kOf T M θ C 0 := by
    have h2 := hP2
    unfold caseProb at h2 ⊢
    rw [prob_edge h _ _ _ he0, if_pos (ha 0 (by omega)), h2, one_mul, kOf_edge h he0]
    exact (cond_ratio h _ _ _ (by omega) (ha 2 (by omega)) (ne_of_gt (hD.mu 2 (by omega) (by omega)))).symm
  have hk0 : kOf T M θ C 0 ≠ 0 := by rw [kOf_edge h he0]; exact ne_of_gt (Real.exp_pos _)
  have hroot : codeDP T θ (cascadeSum T C.ch) (caseValue T M θ C) (kOf T M θ C) (caseProb T M θ C)
    (codeRow T θ (cascadeOr T C.av) (caseValue T M θ C) (kOf T M θ C) (d0Of T M hold θ C)) 2 p = 0 := by
    have := codeDP_root T θ (cascadeSum T C.ch) (caseValue T M θ C) (kOf T M θ C) (caseProb T M θ C)
      (codeRow T θ (cascadeOr T C.av) (caseValue T M θ C) (kOf T M θ C) (d0Of T M hold θ C)) p
    rw [hN] at this; exact this
  unfold dPOf
  rw [codeDP_edge h θ _ _ _ _ _ he0 hch2, hr0, hr2, hP2, hroot, add_zero, hP0]
  field_simp

/-- Value of the root over two available alternatives, and the log probability of alternative 0. -/
theorem flat_logprob {T : Tree} {M : Terms} {θ : Nat → ℝ} {C : Case} (hD : DenseCase T M θ C)
    (hA : T.nAlts = 2) (hN : T.nNodes = 3) (hE : T.edges = [(2, 0), (2, 1)])
    (hav : C.av = fun _ => true) :
    caseValue T M θ C 2 = muN T θ 2 * Real.log (Real.exp (utility M θ (coReal C) (caReal C) 0 / muN T θ 2) +
      Real.exp (utility M θ (coReal C) (caReal C) 1 / muN T θ 2)) ∧
    Real.log (caseProb T M θ C 0) =
      (utility M θ (coReal C) (caReal C) 0 - caseValue T M θ C 2) / muN T θ 2 := by
  have h := hD.wf
  have hk : kids T 2 = [0, 1] := by unfold kids; rw [hE]; decide
  have ha : ∀ n < 2, (shapeOf T C.av).avail n := fun n hn => (avail_alt _ (by omega)).mpr (by rw [hav])
  constructor
  · unfold caseValue
    rw [value_nest h _ _ _ (by omega), hk]
    simp only [List.map_cons, List.map_nil, ha 0 (by omega), ha 1 (by omega), if_true, List.sum_cons,
      List.sum_nil, add_zero]
    rw [value_alt _ _ _ (by omega), value_alt _ _ _ (by omega)]
  · have := log_prob_edge h C.av (muN T θ) (utility M θ (coReal C) (caReal C)) (p := 2) (c := 0)
      (ne_of_gt (hD.mu 2 (by omega) (by omega))) (by rw [hE]; simp) (ha 0 (by omega))
    have hr := prob_root (T := T) C.av (muN T θ) (utility M θ (coReal C) (caReal C))
    rw [hN] at hr
    have hr' : (shapeOf T C.av).prob (muN T θ) (utility M θ (coReal C) (caReal C)) 2 = 1 := hr
    rw [hr', Real.log_one, zero_add, value_alt _ _ _ (by omega)] at this
    exact this

theorem flat_loglike {T : Tree} {M : Terms} {θ : Nat → ℝ} {C : Case}
    (hA : T.nAlts = 2) (hch : C.ch = fun a => if a = 0 then 1 else 0) (hwt : C.wt = 1) :
    caseLoglike T M θ C = Real.log (caseProb T M θ C 0) := by
  unfold caseLoglike Shape.loglike
  have : (shapeOf T C.av).nAlts = 2 := hA
  rw [this, hch, hwt]
  simp [caseProb]

/-- **C05 violated (logsum parameter on the root).** The log likelihood does not depend on the parameter at all,
but the returned gradient is `log 2`. -/
theorem C05_fails_root_logsum (W : Work) :
    (∀ᶠ t in nhds (1 : ℝ), (runCase rootMuTree noTerms (fun _ => false)
        (update (fun _ => 1) 0 t) (plainCase 0) W).loglike = .fin (-Real.log 2)) ∧
    (runCase rootMuTree noTerms (fun _ => false) (fun _ => 1) (plainCase 0) W).dLoglike 0 =
        .fin (Real.log 2) := by
  have hu : ∀ θ a, utility noTerms θ (coReal (plainCase 0)) (caReal (plainCase 0)) a = 0 := by
    intro θ a; simp [utility, noTerms]
  have hD : DenseCase rootMuTree noTerms (fun _ => 1) (plainCase 0) :=
    plain_dense rootMuTree_wf _ 0 (fun n _ _ => by simp [muN, rootMuTree])
  have hch : ∀ a < rootMuTree.nAlts, (plainCase 0).ch a ≠ 0 → (plainCase 0).av a = true := fun _ _ _ => rfl
  have hlp : ∀ θ, DenseCase rootMuTree noTerms θ (plainCase 0) →
      caseValue rootMuTree noTerms θ (plainCase 0) 2 = muN rootMuTree θ 2 * Real.log 2 ∧
      Real.log (caseProb rootMuTree noTerms θ (plainCase 0) 0) = -Real.log 2 := by
    intro θ hθ
    obtain ⟨h1, h2⟩ := flat_logprob hθ rfl rfl rfl rfl
    have e1 : caseValue rootMuTree noTerms θ (plainCase 0) 2 = muN rootMuTree θ 2 * Real.log 2 := by
      rw [h1, hu, hu]; norm_num
    refine ⟨e1, ?_⟩
    rw [h2, e1, hu, zero_sub]
    have := hθ.mu 2 (by decide) (by decide)
    field_simp
  constructor
  · filter_upwards [denseCase_eventually hD 0] with t ht
    rw [run_loglike ht _ W hch, flat_loglike rfl rfl rfl, (hlp _ ht).2]
  · have hP : caseProb rootMuTree noTerms (fun _ => 1) (plainCase 0) 0 = 1 / 2 := by
      have hpos : 0 < caseProb rootMuTree noTerms (fun _ => 1) (plainCase 0) 0 :=
        prob_pos rootMuTree_wf _ _ _ 0 (by decide) ((avail_alt _ (by decide)).mpr rfl)
      have := congrArg Real.exp (hlp _ hD).2
      rw [Real.exp_log hpos, Real.exp_neg, Real.exp_log (by norm_num)] at this
      rw [this]; norm_num
    have v0 : ∀ a < 2, caseValue rootMuTree noTerms (fun _ => 1) (plainCase 0) a = 0 := by
      intro a ha; unfold caseValue; rw [value_alt _ _ _ ha, hu]
    rw [flat_grad hD rfl rfl rfl rfl rfl rfl _ W 0 (by rw [hP]; norm_num)]
    have hs : slotIs rootMuTree 2 0 := rfl
    have hm : muN rootMuTree (fun _ => 1) 2 = 1 := rfl
    have hcc : ∀ a, codeCoef (fun _ => false) noTerms (fun _ => 1) (coReal (plainCase 0)) (caReal (plainCase 0)) a 0 = 0 := by
      intro a; simp [codeCoef, codeSizeCoef, linCoef, noTerms]
    congr 1
    simp only [Finset.sum_range_succ, Finset.sum_range_zero, hcc, if_pos hs, v0 0 (by omega), v0 1 (by omega),
      (hlp _ hD).1, hm]
    norm_num

/-- Two quantity terms that share parameter 0. -/
def dupTerms : Terms := ⟨[⟨1, 0, 0⟩, ⟨1, 0, 0⟩], none, [], []⟩

/-- Sizes 1 and 2. -/
noncomputable def dupCase : Case where
  ch a := if a = 0 then 1 else 0
  av _ := true
  wt := 1
  co _ := 0
  ca a _ := .fin (if a = 0 then 1 else 2)
  ce := none

theorem dup_size (θ : Nat → ℝ) (a : Nat) : size θ dupTerms.q (caReal dupCase a) =
    2 * Real.exp (θ 0) * (if a = 0 then 1 else 2) := by
  simp [size, dupTerms, caReal, dupCase]; split_ifs <;> ring

theorem dup_dense (θ : Nat → ℝ) : DenseCase flat2 dupTerms θ dupCase where
  wf := flat2_wf
  dense := rfl
  mu := fun n _ _ => by simp [muN, flat2]
  data := ⟨fun _ _ _ t _ => ⟨_, rfl⟩, fun t ht => by simp [dupTerms] at ht⟩
  size := fun _ a _ _ => by rw [dup_size]; split_ifs <;> positivity
  co := fun t ht => by simp [dupTerms] at ht

/-- **C05 violated (parameter used in two quantity terms).** The log likelihood does not depend on the parameter
(it scales both sizes), but the returned gradient is 1/6. -/
theorem C05_fails_duplicate_quantity (W : Work) :
    (∀ t : ℝ, (runCase flat2 dupTerms (fun _ => false) (update (fun _ => 0) 0 t) dupCase W).loglike =
      .fin (-Real.log 3)) ∧
    (runCase flat2 dupTerms (fun _ => false) (fun _ => 0) dupCase W).dLoglike 0 = .fin (1 / 6) := by
  have hu : ∀ θ a, utility dupTerms θ (coReal dupCase) (caReal dupCase) a =
      Real.log (2 * Real.exp (θ 0) * (if a = 0 then 1 else 2)) := by
    intro θ a
    unfold utility
    rw [dup_size]
    simp [dupTerms, sizeScale]
  have hch : ∀ a < flat2.nAlts, dupCase.ch a ≠ 0 → dupCase.av a = true := fun _ _ _ => rfl
  have hm : ∀ θ, muN flat2 θ 2 = 1 := fun _ => rfl
  have hv : ∀ θ, caseValue flat2 dupTerms θ dupCase 2 = Real.log (6 * Real.exp (θ 0)) := by
    intro θ
    rw [(flat_logprob (dup_dense θ) rfl rfl rfl rfl).1, hu, hu, hm, one_mul, div_one, div_one,
      Real.exp_log (by simp; positivity), Real.exp_log (by simp; positivity)]
    congr 1
    simp
    ring
  have hlp : ∀ θ, Real.log (caseProb flat2 dupTerms θ dupCase 0) = -Real.log 3 := by
    intro θ
    rw [(flat_logprob (dup_dense θ) rfl rfl rfl rfl).2, hv, hu, hm, div_one]
    simp only [if_true, mul_one]
    rw [← Real.log_div (by positivity) (by positivity), ← Real.log_inv]
    congr 1
    field_simp
    norm_num
  constructor
  · intro t
    rw [run_loglike (dup_dense _) _ W hch, flat_loglike rfl rfl rfl, hlp]
  · have hP : caseProb flat2 dupTerms (fun _ => 0) dupCase 0 = 1 / 3 := by
      have hpos : 0 < caseProb flat2 dupTerms (fun _ => 0) dupCase 0 :=
        prob_pos flat2_wf _ _ _ 0 (by decide) ((avail_alt _ (by decide)).mpr rfl)
      have := congrArg Real.exp (hlp (fun _ => 0))
      rw [Real.exp_log hpos, Real.exp_neg, Real.exp_log (by norm_num)] at this
      rw [this]; norm_num
    rw [flat_grad (dup_dense _) rfl rfl rfl rfl rfl rfl _ W 0 (by rw [hP]; norm_num)]
    have hs : ¬ slotIs flat2 2 0 := by simp [slotIs, flat2]
    have hcc : ∀ a, codeCoef (fun _ => false) dupTerms (fun _ => 0) (coReal dupCase) (caReal dupCase) a 0 =
        1 / (2 * (if a = 0 then 1 else 2)) := by
      intro a
      unfold codeCoef codeSizeCoef
      have hf : dupTerms.q.filter (fun t => t.param = 0) = dupTerms.q := rfl
      have hne : dupTerms.q ≠ [] := by simp [dupTerms]
      have ho : occ dupTerms.q 0 = 2 := rfl
      rw [hf, dup_size, if_neg hne, ho]
      simp only [Bool.false_eq_true, if_false, Real.exp_zero]
      simp [dupTerms, sizeScale, linCoef]
      split_ifs <;> norm_num
    have k0 : kOf flat2 dupTerms (fun _ => 0) dupCase 0 = 1 / 3 := by
      rw [kOf_edge flat2_wf (show (2, 0) ∈ flat2.edges by decide), hv, hm, div_one]
      unfold caseValue
      rw [value_alt _ _ _ (by decide), hu, Real.exp_sub, Real.exp_log (by simp), Real.exp_log (by positivity)]
      norm_num
    have k1 : kOf flat2 dupTerms (fun _ => 0) dupCase 1 = 2 / 3 := by
      rw [kOf_edge flat2_wf (show (2, 1) ∈ flat2.edges by decide), hv, hm, div_one]
      unfold caseValue
      rw [value_alt _ _ _ (by decide), hu, Real.exp_sub, Real.exp_log (by simp), Real.exp_log (by positivity)]
      norm_num
    congr 1
    simp only [Finset.sum_range_succ, Finset.sum_range_zero, hcc, if_neg hs, hm, k0, k1]
    norm_num

/-! ## C06 -/

/-- **C06 (a).** For parameters satisfying the conditions of C05, the returned BHHH entry is
`weight * ∑ choice * g_p * g_q`, where `g_p` is the derivative with respect to `p` of the log of the returned
probability of the chosen alternative.  (Conditions as in `C05_gradient_is_derivative_partial`; the code is
wrong outside them.) -/
theorem C06_bhhh_outer_product_partial {T : Tree} {M : Terms} {θ : Nat → ℝ} {C : Case}
    (hD : DenseCase T M θ C) (hold : Nat → Bool) (W : Work) (p q : Nat)
    (hp : ∀ r, r = p ∨ r = q → hold r = false ∧ (M.q.filter (fun t => t.param = r)).length ≤ 1 ∧
      T.muSlot (T.nNodes - 1 - T.nAlts) ≠ some r)
    (hsep : SeparateLogsums T M)
    (hch : ∀ a < T.nAlts, C.ch a ≠ 0 → C.av a = true) (hch0 : ∀ a < T.nAlts, 0 ≤ C.ch a)
    (hpos : ∀ a < T.nAlts, C.ch a ≠ 0 → 1 / 10 ^ 250 ≤ caseProb T M θ C a) :
    ∃ g : Nat → Nat → ℝ,
      (∀ a < T.nAlts, C.ch a ≠ 0 → ∀ r, r = p ∨ r = q →
        (∀ᶠ t in nhds (θ r), (runCase T M hold (update θ r t) C W).probability a =
          .fin (caseProb T M (update θ r t) C a)) ∧
        HasDerivAt (fun t => Real.log (caseProb T M (update θ r t) C a)) (g a r) (θ r)) ∧
      (runCase T M hold θ C W).bhhh p q =
        .fin (C.wt * ∑ a ∈ Finset.range T.nAlts, C.ch a * (g a p * g a q)) := by
  refine ⟨fun a r => dPOf T M hold θ C a r / caseProb T M θ C a, ?_, (run_grad hD hold W hch hpos).2 p q⟩
  intro a ha hc r hr
  obtain ⟨h1, h2, h3⟩ := hp r hr
  constructor
  · filter_upwards [denseCase_eventually hD r] with t ht
    exact run_prob ht hold W a (lt_trans ha hD.wf.root)
  · have hpp : 0 < caseProb T M θ C a :=
      prob_pos hD.wf C.av _ _ a (lt_trans ha hD.wf.root) ((avail_alt C.av ha).mpr (hch a ha hc))
    have h4 := (dPOf_hasDeriv hD hold r h1 h2 h3 hsep hch hch0 a ha hc).log
      (by rw [update_eq_self]; exact ne_of_gt hpp)
    rw [update_eq_self] at h4
    exact h4

example (W : Work) :=
  C06_bhhh_outer_product_partial demo_dense (fun _ => false) W 0 1
    (by intro r hr; rcases hr with rfl | rfl <;> refine ⟨rfl, ?_, ?_⟩ <;> simp [demoTerms, demoTree])
    demo_separate demo_chosen demo_nonneg demo_prob_large

/-- **C06 violated (parameter used in two quantity terms).**  The probability of the chosen alternative does not depend on the
parameter, but the BHHH entry is 1/36. -/
theorem C06_fails_duplicate_quantity (W : Work) :
    (∀ t : ℝ, (runCase flat2 dupTerms (fun _ => false) (update (fun _ => 0) 0 t) dupCase W).loglike =
      .fin (-Real.log 3)) ∧
    (runCase flat2 dupTerms (fun _ => false) (fun _ => 0) dupCase W).bhhh 0 0 = .fin (1 / 36) := by
  obtain ⟨h1, h2⟩ := C05_fails_duplicate_quantity W
  refine ⟨h1, ?_⟩
  have hch : ∀ a < flat2.nAlts, dupCase.ch a ≠ 0 → dupCase.av a = true := fun _ _ _ => rfl
  obtain ⟨g1, g2⟩ := run_grad_floor (dup_dense (fun _ => 0)) (fun _ => false) W hch
  rw [g1 0] at h2
  rw [g2 0 0]
  have h3 := X.fin.inj h2
  simp only [show flat2.nAlts = 2 from rfl, Finset.sum_range_succ, Finset.sum_range_zero, dupCase] at h3 ⊢
  congr 1
  simp at h3 ⊢
  rw [h3]
  norm_num

/-- **C06 (b).** The returned BHHH matrix is real, symmetric and, for non-negative weight and choices, positive
semidefinite — for every parameter vector, every holdfast pattern and whatever logsum parameters are
shared (no condition of C05 is needed). -/
theorem C06_bhhh_symmetric_psd {T : Tree} {M : Terms} {θ : Nat → ℝ} {C : Case}
    (hD : DenseCase T M θ C) (hold : Nat → Bool) (W : Work)
    (hch : ∀ a < T.nAlts, C.ch a ≠ 0 → C.av a = true) :
    ∃ B : Nat → Nat → ℝ, (∀ p q, (runCase T M hold θ C W).bhhh p q = .fin (B p q)) ∧
      (∀ p q, B p q = B q p) ∧
      (0 ≤ C.wt → (∀ a < T.nAlts, 0 ≤ C.ch a) → ∀ (n : Nat) (v : Nat → ℝ),
        0 ≤ ∑ p ∈ Finset.range n, ∑ q ∈ Finset.range n, v p * B p q * v q) := by
  refine ⟨_, (run_grad_floor hD hold W hch).2, ?_, ?_⟩
  · intro p q
    congr 1
    apply Finset.sum_congr rfl
    intro a _
    ring
  · intro hwt hch0 n v
    set g : Nat → Nat → ℝ := fun a p => dPOf T M hold θ C a p / max (caseProb T M θ C a) (1 / 10 ^ 250)
    have : ∑ p ∈ Finset.range n, ∑ q ∈ Finset.range n,
        v p * (C.wt * ∑ a ∈ Finset.range T.nAlts, C.ch a * (g a p * g a q)) * v q =
        C.wt * ∑ a ∈ Finset.range T.nAlts, C.ch a * (∑ p ∈ Finset.range n, v p * g a p) ^ 2 := by
      have e1 : ∀ p q, v p * (C.wt * ∑ a ∈ Finset.range T.nAlts, C.ch a * (g a p * g a q)) * v q =
          ∑ a ∈ Finset.range T.nAlts, C.wt * (C.ch a * ((v p * g a p) * (v q * g a q))) := by
        intro p q
        rw [Finset.mul_sum, Finset.mul_sum, Finset.sum_mul]
        apply Finset.sum_congr rfl
        intro a _; ring
      simp only [e1]
      rw [Finset.mul_sum]
      have e2 : ∀ a, C.wt * (C.ch a * (∑ p ∈ Finset.range n, v p * g a p) ^ 2) =
          ∑ p ∈ Finset.range n, ∑ q ∈ Finset.range n, C.wt * (C.ch a * ((v p * g a p) * (v q * g a q))) := by
        intro a
        rw [pow_two, Finset.sum_mul_sum, Finset.mul_sum, Finset.mul_sum]
        apply Finset.sum_congr rfl
        intro p _
        rw [Finset.mul_sum, Finset.mul_sum]
      simp only [e2]
      rw [Finset.sum_congr rfl (fun p _ => Finset.sum_comm), Finset.sum_comm]
    rw [this]
    apply mul_nonneg hwt
    apply Finset.sum_nonneg
    intro a ha
    exact mul_nonneg (hch0 a (Finset.mem_range.mp ha)) (sq_nonneg _)

example (W : Work) := C06_bhhh_symmetric_psd demo_dense (fun p => p == 2) W demo_chosen

/-! ## C07 -/

/-- **C07 (utility and quantity parameters).** The gradient and BHHH entries of a held-fast parameter that is not a
logsum parameter of any nest are exactly zero.  Missing: held-fast *logsum* parameters, for which the code
violates the property (`C07_fails_logsum`). -/
theorem C07_holdfast_zero_partial {T : Tree} {M : Terms} {θ : Nat → ℝ} {C : Case}
    (hD : DenseCase T M θ C) (hold : Nat → Bool) (W : Work)
    (hch : ∀ a < T.nAlts, C.ch a ≠ 0 → C.av a = true) (p : Nat) (hp : hold p = true)
    (hmu : ∀ n, T.nAlts ≤ n → T.muSlot (n - T.nAlts) ≠ some p) :
    (runCase T M hold θ C W).dLoglike p = .fin 0 ∧
    ∀ q, (runCase T M hold θ C W).bhhh p q = .fin 0 ∧ (runCase T M hold θ C W).bhhh q p = .fin 0 := by
  have hlow : ∀ e ∈ T.edges, T.nAlts ≤ e.1 := fun e he => (hD.wf.edge e he).2.1
  have hz : ∀ a, dPOf T M hold θ C a p = 0 := by
    intro a
    unfold dPOf
    apply codeDP_zero
    · apply codeRow_zero
      · intro n; unfold d0Of; rw [codeCoef_hold _ _ _ _ _ hp]; simp
      · exact hmu
      · exact hlow
    · exact hmu
    · exact hlow
  obtain ⟨h1, h2⟩ := run_grad_floor hD hold W hch
  refine ⟨?_, fun q => ⟨?_, ?_⟩⟩
  · rw [h1]; simp [hz]
  · rw [h2]; simp [hz]
  · rw [h2]; simp [hz]

example (W : Work) := C07_holdfast_zero_partial demo_dense (fun p => p == 2) W demo_chosen 2 rfl
  (by intro n _; simp [demoTree])

/-- **C07, converse direction.** Holding other parameters fast does not change the gradient entry of `p`: it
depends on the holdfast flags only through the flag of `p` itself. -/
theorem C07_holdfast_local {T : Tree} {M : Terms} {θ : Nat → ℝ} {C : Case}
    (hD : DenseCase T M θ C) (hold hold' : Nat → Bool) (W W' : Work)
    (hch : ∀ a < T.nAlts, C.ch a ≠ 0 → C.av a = true) (p : Nat) (hp : hold p = hold' p) :
    (runCase T M hold θ C W).dLoglike p = (runCase T M hold' θ C W').dLoglike p := by
  have hz : ∀ a, dPOf T M hold θ C a p = dPOf T M hold' θ C a p := by
    intro a
    unfold dPOf
    apply codeDP_congr
    apply codeRow_congr
    intro n; unfold d0Of; rw [codeCoef_congr _ _ _ _ _ hp]
  rw [(run_grad_floor hD hold W hch).1, (run_grad_floor hD hold' W' hch).1]
  simp only [hz]

/-- **C07 violated (logsum parameters).** A held-fast logsum parameter has a non-zero gradient entry: here all
parameters are held fast, and the entry of the logsum parameter equals (twice the derivative, as in
`C05_fails_shared_logsum`) a non-zero number. -/
theorem C07_fails_logsum (W : Work) :
    ∃ g : ℝ, g ≠ 0 ∧ (runCase sharedTree noTerms (fun _ => true) (fun _ => 1 / 2) (plainCase 2) W).dLoglike 0 =
      .fin g := by
  obtain ⟨f, f', _, _, hne, hg⟩ := C05_fails_shared_logsum W
  refine ⟨2 * f', by simpa using hne, ?_⟩
  rw [← hg]
  have hD : DenseCase sharedTree noTerms (fun _ => 1 / 2) (plainCase 2) := plain_dense sharedTree_wf _ 2 (by
    intro n h1 h2
    have h1 : 3 ≤ n := h1
    have h2 : n < 6 := h2
    obtain ⟨m3, m4, m5⟩ := shared_muN (fun _ => 1 / 2)
    have : n = 3 ∨ n = 4 ∨ n = 5 := by omega
    rcases this with rfl | rfl | rfl <;> simp only [m3, m4, m5] <;> norm_num)
  have hz : ∀ a p, dPOf sharedTree noTerms (fun _ => true) (fun _ => 1 / 2) (plainCase 2) a p =
      dPOf sharedTree noTerms (fun _ => false) (fun _ => 1 / 2) (plainCase 2) a p := by
    intro a p
    unfold dPOf
    apply codeDP_congr
    apply codeRow_congr
    intro n
    simp [d0Of, codeCoef, codeSizeCoef, linCoef, noTerms]
  rw [(run_grad_floor hD _ W (fun _ _ _ => rfl)).1, (run_grad_floor hD _ W (fun _ _ _ => rfl)).1]
  simp only [hz]

end Larch.Props
