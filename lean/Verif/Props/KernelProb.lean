import Verif.Props.KernelDemo

/-!
# C01, C02, C03, C04: probabilities, availability, logsums and log likelihood of one case
-/

namespace Larch.Props

open Function Larch Larch.Kernel Larch.Spec
open scoped BigOperators
open Classical

/-! ## C01 -/

theorem root_available {T : Tree} (h : T.WF) {av : Nat → Bool} (hex : ∃ a < T.nAlts, av a = true) :
    (shapeOf T av).avail (T.nNodes - 1) := by
  obtain ⟨a, ha, haa⟩ := hex
  have key : ∀ n < T.nNodes, (shapeOf T av).avail n → (shapeOf T av).avail (T.nNodes - 1) := by
    refine h.top_down (fun hh => hh) ?_
    intro p c he ih hc
    exact ih (avail_parent h av he hc)
  exact key a (lt_trans ha h.root) ((avail_alt av ha).mpr haa)

/-- **C01.** The probabilities returned by the kernel for the alternatives of a case are real numbers, are
non-negative and sum to 1, whenever some alternative is available.  Moreover they are the textbook nested
logit probabilities. -/
theorem C01_probabilities_form_distribution {T : Tree} {M : Terms} {θ : Nat → ℝ} {C : Case}
    (hD : DenseCase T M θ C) (hex : ∃ a < T.nAlts, C.av a = true) (hold : Nat → Bool) (W : Work) :
    ∃ P : Nat → ℝ, (∀ a < T.nAlts, (runCase T M hold θ C W).probability a = .fin (P a)) ∧
      (∀ a < T.nAlts, 0 ≤ P a) ∧ ∑ a ∈ Finset.range T.nAlts, P a = 1 ∧
      ∀ a, P a = caseProb T M θ C a := by
  refine ⟨caseProb T M θ C, ?_, ?_, ?_, fun _ => rfl⟩
  · intro a ha; exact run_prob hD hold W a (lt_trans ha hD.wf.root)
  · intro a ha; exact prob_nonneg hD.wf C.av _ _ a (lt_trans ha hD.wf.root)
  · exact prob_sum hD.wf C.av _ _ (root_available hD.wf hex)

example : ∃ a < demoTree.nAlts, demoCase.av a = true := ⟨1, by decide, rfl⟩
example (W : Work) := C01_probabilities_form_distribution demo_dense ⟨1, by decide, rfl⟩ (fun _ => false) W

/-- Two alternatives under the root. -/
def flat2 : Tree where
  nAlts := 2
  nNodes := 3
  edges := [(2, 0), (2, 1)]
  muSlot _ := none
  start _ := 0
  len _ := 2

theorem flat2_wf : flat2.WF where
  root := by decide
  edge := by decide
  sorted := by decide
  oneParent := by decide
  covered := by
    intro n hn
    have : n + 1 < 3 := hn
    have : n = 0 ∨ n = 1 := by omega
    rcases this with rfl | rfl
    · exact ⟨2, by decide⟩
    · exact ⟨2, by decide⟩
  slots := by
    intro k hk
    have : 2 + k < 3 := hk
    have : k = 0 := by omega
    subst this; decide

/-- No utility terms at all. -/
def noTerms : Terms := ⟨[], none, [], []⟩

/-- A sparse (idce) case with a row for each of two alternatives, where alternative 1 is present in the data
but flagged unavailable. -/
noncomputable def sparseUnavail : Case where
  ch a := if a = 0 then 1 else 0
  av a := a = 0
  wt := 1
  co _ := 0
  ca _ _ := 0
  ce := some [(0, fun _ => 0), (1, fun _ => 0)]

/-- The probabilities in the idce case above. -/
theorem sparseUnavail_prob (W : Work) :
    (runCase flat2 noTerms (fun _ => false) (fun _ => 0) sparseUnavail W).probability 0 = .fin (1 / 2) ∧
    (runCase flat2 noTerms (fun _ => false) (fun _ => 0) sparseUnavail W).probability 1 = .fin 0 := by
  have hasc : Ascending [(0, fun _ => (0 : X)), (1, fun _ => (0 : X))] := by
    simp [Ascending]
  set st := assemble (fun _ => 0) (fun _ => false) 2 noTerms
    { sparseUnavail with av := cascadeOr flat2 sparseUnavail.av } with hst
  have hlow : ∀ a < 2, st.U a = .fin 0 := by
    intro a ha
    have := (assemble_sparse (fun _ => 0) (fun _ => false) 2 noTerms
      { sparseUnavail with av := cascadeOr flat2 sparseUnavail.av } _ rfl hasc (by simp) a ha).1
    have h2 := this (a, fun _ => 0) (by
      have : a = 0 ∨ a = 1 := by omega
      rcases this with rfl | rfl <;> simp) rfl
    have h3 := congrArg Prod.fst h2
    refine Eq.trans h3 ?_
    by_cases hh : cascadeOr flat2 sparseUnavail.av a = true <;>
      simp [hh, altL, noTerms, qBodyL] <;> rfl
  have hhigh : ∀ n, 2 ≤ n → st.U n = .fin 0 := by
    intro n hn
    have := assemble_sparse_high (fun _ => 0) (fun _ => false) 2 noTerms
      { sparseUnavail with av := cascadeOr flat2 sparseUnavail.av } _ rfl hasc (by simp) n (by omega)
    have h3 := congrArg Prod.fst this
    refine Eq.trans h3 ?_
    by_cases hh : cascadeOr flat2 sparseUnavail.av n = true <;> simp [hh, noTerms] <;> rfl
  have hmu : ∀ k, flat2.nAlts + k < flat2.nNodes → 0 < muOf flat2 (fun _ => 0) k := by
    intro k _; simp [muOf, flat2]
  have hU := upPass_value flat2_wf (fun _ => 0) st.U (fun _ => true) (fun _ => 0) hmu
    (by intro a ha; rw [hlow a ha]; simp [emb]) (fun n hn _ => hhigh n hn)
  have hlp := fun c (he : (2, c) ∈ flat2.edges) => edgeLogprob_eq flat2_wf (fun _ => 0)
    (upPass flat2 (fun _ => 0) st.U) (fun _ => true) _ hmu hU he
  have hpr := probPass_eq flat2_wf (cascadeOr flat2 sparseUnavail.av)
    (runCase flat2 noTerms (fun _ => false) (fun _ => 0) sparseUnavail W).logprob W.probability
  have hav0 : cascadeOr flat2 sparseUnavail.av 0 = true := by
    rw [cascadeOr_alt flat2_wf _ (by decide)]; rfl
  have hav1 : cascadeOr flat2 sparseUnavail.av 1 = false := by
    rw [cascadeOr_alt flat2_wf _ (by decide)]; rfl
  have hr : probPass flat2 (cascadeOr flat2 sparseUnavail.av)
    (runCase flat2 noTerms (fun _ => false) (fun _ => 0) sparseUnavail W).logprob W.probability 2 = 1 := hpr.2
  have ha0 : (shapeOf flat2 (fun _ => true)).avail 0 := (avail_alt _ (by decide)).mpr rfl
  have ha1 : (shapeOf flat2 (fun _ => true)).avail 1 := (avail_alt _ (by decide)).mpr rfl
  have hv2 : (shapeOf flat2 (fun _ => true)).value (muN flat2 (fun _ => 0)) (fun _ => 0) 2 = Real.log 2 := by
    rw [value_nest flat2_wf _ _ _ (by decide)]
    have : kids flat2 2 = [0, 1] := by decide
    rw [this]
    simp only [List.map_cons, List.map_nil, ha0, ha1, if_true]
    rw [value_alt _ _ _ (by decide), value_alt _ _ _ (by decide)]
    simp [muN, flat2]
    norm_num
  constructor
  · refine (hpr.1 2 0 (by decide)).trans ?_
    rw [hr, hav0]
    simp only [if_true]
    have : (runCase flat2 noTerms (fun _ => false) (fun _ => 0) sparseUnavail W).logprob 0 = .fin (1 / 2) := by
      show condOf 3 (cascadeOr flat2 sparseUnavail.av) (logprobPass flat2 (fun _ => 0)
        (upPass flat2 (fun _ => 0) st.U) _ _ W.logprob).1 0 = _
      unfold condOf
      rw [if_pos ⟨by decide, hav0⟩, logprobPass_at flat2_wf _ _ _ _ _ (show (2, 0) ∈ flat2.edges by decide),
        hlp 0 (by decide), hv2, value_alt _ _ _ (by decide)]
      simp only [emb, ha0, if_true, X.exp_fin]
      simp [muN, flat2, Real.exp_neg, Real.exp_log]
    rw [this]
    show X.fin (1 * (1 / 2)) = _
    norm_num
  · refine (hpr.1 2 1 (by decide)).trans ?_
    rw [hav1]; rfl

/-- **C01 violated for sparse data.** With idce data, a row whose alternative is flagged unavailable still
enters the logsum: the probabilities of a case with an available alternative sum to 1/2 instead of 1. -/
theorem C01_fails_sparse_unavailable_row (W : Work) :
    (∃ a < flat2.nAlts, sparseUnavail.av a = true) ∧
    (runCase flat2 noTerms (fun _ => false) (fun _ => 0) sparseUnavail W).probability 0 +
      (runCase flat2 noTerms (fun _ => false) (fun _ => 0) sparseUnavail W).probability 1 = .fin (1 / 2) := by
  refine ⟨⟨0, by decide, rfl⟩, ?_⟩
  rw [(sparseUnavail_prob W).1, (sparseUnavail_prob W).2]
  simp

/-! ## C02 -/

/-- **C02 (a).** An alternative flagged unavailable gets probability exactly 0: for every tree, any data (dense
or sparse, finite or not), any parameters and any previous content of the work arrays. -/
theorem C02_unavailable_zero {T : Tree} (h : T.WF) (M : Terms) (hold : Nat → Bool) (θ : Nat → ℝ) (C : Case)
    (W : Work) {a : Nat} (ha : a < T.nAlts) (hav : C.av a = false) :
    (runCase T M hold θ C W).probability a = .fin 0 := by
  obtain ⟨p, hp⟩ := h.covered a (by have := h.root; omega)
  have := (probPass_eq h (cascadeOr T C.av) (runCase T M hold θ C W).logprob W.probability).1 p a hp
  refine this.trans ?_
  rw [cascadeOr_alt h C.av ha, hav]
  rfl

example (W : Work) : (runCase demoTree demoTerms (fun _ => false) demoTheta demoCase W).probability 2 = .fin 0 :=
  C02_unavailable_zero demoTree_wf _ _ _ _ _ (by decide) rfl

/-- **C02 (b).** An available alternative gets a strictly positive probability (dense data). -/
theorem C02_available_positive {T : Tree} {M : Terms} {θ : Nat → ℝ} {C : Case}
    (hD : DenseCase T M θ C) (hold : Nat → Bool) (W : Work) {a : Nat} (ha : a < T.nAlts)
    (hav : C.av a = true) :
    ∃ r, 0 < r ∧ (runCase T M hold θ C W).probability a = .fin r :=
  ⟨caseProb T M θ C a, prob_pos hD.wf C.av _ _ a (lt_trans ha hD.wf.root) ((avail_alt C.av ha).mpr hav),
    run_prob hD hold W a (lt_trans ha hD.wf.root)⟩

example (W : Work) := C02_available_positive demo_dense (fun _ => false) W (a := 0) (by decide) rfl

theorem ext_get {s s' : UState} (h : ∀ a, Kernel.get s a = Kernel.get s' a) : s = s' := by
  cases s with
  | mk U dU =>
    cases s' with
    | mk U' dU' =>
      have h1 : U = U' := funext fun a => congrArg Prod.fst (h a)
      have h2 : dU = dU' := funext fun a => congrArg Prod.snd (h a)
      rw [h1, h2]

theorem filter_filter_eq {l l' : List CoTerm} {av : Nat → Bool}
    (h : l.filter (fun t => av t.alt) = l'.filter (fun t => av t.alt)) {a : Nat} (ha : av a = true) :
    l.filter (fun t => t.alt = a) = l'.filter (fun t => t.alt = a) := by
  have key : ∀ m : List CoTerm, m.filter (fun t => t.alt = a) =
      (m.filter (fun t => av t.alt)).filter (fun t => t.alt = a) := by
    intro m
    rw [List.filter_filter]
    apply List.filter_congr
    intro t _
    by_cases ht : t.alt = a
    · simp [ht, ha]
    · simp [ht]
  rw [key l, key l', h]

/-- **C02 (c).** Neither the data of an unavailable alternative (which may be NaN or infinite) nor the terms of
its utility function influence anything the kernel returns: probabilities, logsums, log likelihood, gradient
and BHHH are all unchanged when they are replaced (dense data). -/
theorem C02_unavailable_data_irrelevant {T : Tree} (h : T.WF) (M M' : Terms) (hold : Nat → Bool) (θ : Nat → ℝ)
    (C C' : Case) (W : Work) (hce : C.ce = none) (hce' : C'.ce = none)
    (hq : M.q = M'.q) (hqs : M.qScale = M'.qScale) (hca : M.ca = M'.ca)
    (hcoalt : ∀ t ∈ M.co ++ M'.co, t.alt < T.nAlts)
    (hco : M.co.filter (fun t => C.av t.alt) = M'.co.filter (fun t => C.av t.alt))
    (hch : C.ch = C'.ch) (hav : C.av = C'.av) (hwt : C.wt = C'.wt) (hcod : C.co = C'.co)
    (hdata : ∀ a < T.nAlts, C.av a = true → C.ca a = C'.ca a) :
    runCase T M hold θ C W = runCase T M' hold θ C' W := by
  unfold runCase
  rw [← hch, ← hav, ← hwt]
  simp only
  congr 1
  apply ext_get
  intro a
  rw [assemble_dense θ hold T.nAlts M { C with av := cascadeOr T C.av } hce]
  rw [assemble_dense θ hold T.nAlts M' ⟨C.ch, cascadeOr T C.av, C.wt, C'.co, C'.ca, C'.ce⟩ hce']
  simp only
  by_cases ha : a < T.nAlts
  · simp only [ha, if_true]
    have hc := cascadeOr_alt h C.av ha
    by_cases haa : C.av a = true
    · rw [hc]
      simp only [haa, if_true]
      unfold altL
      rw [filter_filter_eq hco haa, hq, hqs, hca, hcod, hdata a ha haa]
    · rw [hc]; simp [haa]
  · simp only [ha, if_false]
    have e1 : M.co.filter (fun t => t.alt = a) = [] := by
      rw [List.filter_eq_nil_iff]; intro t ht
      have := hcoalt t (List.mem_append_left _ ht)
      simp; omega
    have e2 : M'.co.filter (fun t => t.alt = a) = [] := by
      rw [List.filter_eq_nil_iff]; intro t ht
      have := hcoalt t (List.mem_append_right _ ht)
      simp; omega
    rw [e1, e2]; rfl

example (W : Work) :
    runCase demoTree demoTerms (fun _ => false) demoTheta demoCase W =
    runCase demoTree { demoTerms with co := ⟨2, 7, 0, some 5⟩ :: demoTerms.co } (fun _ => false) demoTheta
      { demoCase with ca := fun a d => if a < 2 then demoCase.ca a d else .fin 17 } W := by
  apply C02_unavailable_data_irrelevant demoTree_wf <;> try rfl
  · decide
  · intro a _ ha
    have h2 : a < 2 := by simpa [demoCase] using ha
    funext d
    simp [h2]

/-- **C02 (c) violated for sparse data.** In the idce case of `C01_fails_sparse_unavailable_row` the
unavailable row changes the available alternative's probability: it is 1/2 although it is the only available
alternative. -/
theorem C02_fails_sparse_unavailable_row (W : Work) :
    sparseUnavail.av 1 = false ∧
    (runCase flat2 noTerms (fun _ => false) (fun _ => 0) sparseUnavail W).probability 0 = .fin (1 / 2) :=
  ⟨rfl, (sparseUnavail_prob W).1⟩

/-! ## C03 -/

/-- **C03 (a).** The kernel's utility array holds, for every available nest, exactly
`mu * log (∑ exp (U child / mu))` over its available children, where `U child` is what the same array holds for
the child; an unavailable node holds `-inf`.  No trace of the overflow shift remains. -/
theorem C03_logsum_exact {T : Tree} {M : Terms} {θ : Nat → ℝ} {C : Case}
    (hD : DenseCase T M θ C) (hold : Nat → Bool) (W : Work) :
    ∃ V : Nat → ℝ,
      (∀ n < T.nNodes, (runCase T M hold θ C W).utility n =
        if (shapeOf T C.av).avail n then .fin (V n) else .ninf) ∧
      (∀ a < T.nAlts, V a = utility M θ (coReal C) (caReal C) a) ∧
      ∀ n, T.nAlts ≤ n → n < T.nNodes → V n = muN T θ n * Real.log
        (∑ c ∈ (Finset.range n).filter (fun c => (n, c) ∈ T.edges ∧ (shapeOf T C.av).avail c),
          Real.exp (V c / muN T θ n)) := by
  refine ⟨caseValue T M θ C, ?_, ?_, ?_⟩
  · intro n hn
    rw [run_utility hD hold W n hn]
    unfold emb
    congr
  · intro a ha
    exact value_alt _ _ _ ha
  · intro n hn _
    unfold caseValue
    rw [value_nest' hD.wf C.av _ _ hn]
    congr 2
    unfold Shape.denom
    rw [Finset.sum_filter, ← Fin.sum_univ_eq_sum_range (fun c => if (n, c) ∈ T.edges ∧
      (shapeOf T C.av).avail c then Real.exp ((shapeOf T C.av).value (muN T θ)
        (utility M θ (coReal C) (caReal C)) c / muN T θ n) else 0) n]
    refine Finset.sum_congr rfl (fun c _ => ?_)
    congr

theorem value_translate {T : Tree} (h : T.WF) (av : Nat → Bool) (mu u u' : Nat → ℝ) (k : ℝ)
    (hmu : ∀ n, T.nAlts ≤ n → n < T.nNodes → mu n ≠ 0)
    (hu : ∀ a < T.nAlts, av a = true → u' a = u a + k) :
    ∀ n, (shapeOf T av).avail n →
      (shapeOf T av).value mu u' n = (shapeOf T av).value mu u n + k := by
  intro n
  induction n using Nat.strong_induction_on with
  | _ n ih =>
    intro ha
    by_cases hn : n < T.nAlts
    · rw [value_alt _ _ _ hn, value_alt _ _ _ hn]
      exact hu n hn ((avail_alt av hn).mp ha)
    · have hn' : T.nAlts ≤ n := by omega
      have hm := hmu n hn' (avail_lt h av hn' ha)
      have hd := denom_pos h av mu u hn' ha
      have e : (shapeOf T av).denom mu u' n = (shapeOf T av).denom mu u n * Real.exp (k / mu n) := by
        unfold Shape.denom
        rw [Finset.sum_mul]
        apply Finset.sum_congr rfl
        intro c _
        simp only [shapeOf_child]
        split_ifs with hc
        · rw [ih c c.2 hc.2, add_div, Real.exp_add]
        · ring
      rw [value_nest' h av _ _ hn', value_nest' h av _ _ hn', e,
        Real.log_mul (ne_of_gt hd) (ne_of_gt (Real.exp_pos _)), Real.log_exp]
      field_simp

theorem prob_translate {T : Tree} (h : T.WF) (av : Nat → Bool) (mu u u' : Nat → ℝ) (k : ℝ)
    (hmu : ∀ n, T.nAlts ≤ n → n < T.nNodes → mu n ≠ 0)
    (hu : ∀ a < T.nAlts, av a = true → u' a = u a + k) :
    ∀ n < T.nNodes, (shapeOf T av).prob mu u' n = (shapeOf T av).prob mu u n := by
  refine h.top_down ?_ ?_
  · rw [prob_root, prob_root]
  · intro p c he ih
    rw [prob_edge h av _ _ he, prob_edge h av _ _ he]
    split_ifs with ha
    · have hp := h.edge _ he
      simp only at hp
      have hpa := avail_parent h av he ha
      have hm := hmu p hp.2.1 hp.2.2
      rw [ih, ← cond_ratio h av mu u' hp.2.1 hpa hm, ← cond_ratio h av mu u hp.2.1 hpa hm,
        value_translate h av mu u u' k hmu hu c ha, value_translate h av mu u u' k hmu hu p hpa]
      congr 3
      ring
    · rfl

/-- **C03 (b).** Two evaluations whose declared utilities differ by the same constant `k` for every available
alternative return the same probabilities for every node, and node values (in particular the root logsum)
that differ by exactly `k`. -/
theorem C03_translation {T : Tree} {M M' : Terms} {θ : Nat → ℝ} {C C' : Case}
    (hD : DenseCase T M θ C) (hD' : DenseCase T M' θ C') (hav : C'.av = C.av) (k : ℝ)
    (hu : ∀ a < T.nAlts, C.av a = true →
      utility M' θ (coReal C') (caReal C') a = utility M θ (coReal C) (caReal C) a + k)
    (hold hold' : Nat → Bool) (W W' : Work) :
    (∀ n < T.nNodes, (runCase T M' hold' θ C' W').probability n = (runCase T M hold θ C W).probability n) ∧
    ∀ n < T.nNodes, (shapeOf T C.av).avail n → ∃ v, (runCase T M hold θ C W).utility n = .fin v ∧
      (runCase T M' hold' θ C' W').utility n = .fin (v + k) := by
  have hmu : ∀ n, T.nAlts ≤ n → n < T.nNodes → muN T θ n ≠ 0 := fun n a b => ne_of_gt (hD.mu n a b)
  constructor
  · intro n hn
    rw [run_prob hD hold W n hn, run_prob hD' hold' W' n hn]
    unfold caseProb
    rw [hav, prob_translate hD.wf C.av _ _ _ k hmu hu n hn]
  · intro n hn ha
    refine ⟨caseValue T M θ C n, ?_, ?_⟩
    · rw [run_utility hD hold W n hn]; simp [emb, ha]
    · rw [run_utility hD' hold' W' n hn]
      unfold caseValue
      rw [hav, value_translate hD.wf C.av _ _ _ k hmu hu n ha]
      simp [emb, ha]

/-- Shifting every alternative by an alternative-specific constant term of value `k` meets the hypotheses. -/
example : ∀ a < demoTree.nAlts, demoCase.av a = true →
    utility { demoTerms with co := demoTerms.co ++ [⟨0, 5, 2, none⟩, ⟨1, 5, 2, none⟩, ⟨2, 5, 2, none⟩] } demoTheta
      (coReal demoCase) (caReal demoCase) a =
    utility demoTerms demoTheta (coReal demoCase) (caReal demoCase) a + 5 := by
  intro a ha _
  have h3 : a < 3 := ha
  have : a = 0 ∨ a = 1 ∨ a = 2 := by omega
  rcases this with rfl | rfl | rfl <;> simp [utility, demoTerms, demoTheta, coValue, sizeScale] <;> ring

/-- **C03, the boundary `mu = 0`** (not covered by C03, whose logsum parameters are positive): the code's
`mu = 0` branch takes the maximum starting from `0`, so a nest whose best child has negative utility gets
value 0 instead of the limit value (the maximum). -/
theorem C03_fails_mu_zero :
    upPass { flat2 with muSlot := fun _ => some 0 } (fun _ => 0)
      (fun i => if i < 2 then .fin (-1) else .fin 0) 2 = .fin 0 := by
  have hs : ∀ c < 2, maxStep 2 (fun i => if i < 2 then X.fin (-1) else X.fin 0) c =
      fun i => if i < 2 then X.fin (-1) else X.fin 0 := by
    intro c hc
    unfold maxStep
    rw [if_neg]
    simp only [hc, if_true]
    rw [if_neg (by omega), X.fin_gt_fin]
    norm_num
  have hr : List.range' 2 (3 - 2) = [2] := by decide
  have hc : childSlots { flat2 with muSlot := fun _ => some 0 } (2 - 2) = [0, 1] := by decide
  unfold upPass
  simp only [flat2] at hc ⊢
  rw [hr]
  simp only [List.foldl_cons, List.foldl_nil, nestStep, muOf, ne_eq, not_true_eq_false, if_false]
  rw [hc]
  simp only [List.foldl_cons, List.foldl_nil]
  rw [hs 0 (by omega), hs 1 (by omega)]
  simp

/-! ## C04 -/

/-- **C04 (a).** When every chosen alternative is available, the returned log likelihood of the case is
`weight * ∑ choice * log probability`, where the probabilities are those returned by the same evaluation. -/
theorem C04_loglike {T : Tree} {M : Terms} {θ : Nat → ℝ} {C : Case}
    (hD : DenseCase T M θ C) (hch : ∀ a < T.nAlts, C.ch a ≠ 0 → C.av a = true) (hold : Nat → Bool) (W : Work) :
    ∃ P : Nat → ℝ, (∀ a < T.nAlts, (runCase T M hold θ C W).probability a = .fin (P a)) ∧
      (runCase T M hold θ C W).loglike =
        .fin (C.wt * ∑ a ∈ Finset.range T.nAlts, C.ch a * Real.log (P a)) :=
  ⟨caseProb T M θ C, fun a ha => run_prob hD hold W a (lt_trans ha hD.wf.root), run_loglike hD hold W hch⟩

example (W : Work) := C04_loglike demo_dense demo_chosen (fun _ => false) W

theorem fold_ninf (l : List (Nat × Nat)) (g : Nat × Nat → X) (sel : Nat × Nat → Prop) [DecidablePred sel]
    (hg : ∀ e ∈ l, sel e → (∃ r, g e = .fin r) ∨ g e = .ninf) :
    ∀ x : X, ((∃ r, x = .fin r) ∨ x = .ninf) →
      (x = .ninf ∨ ∃ e ∈ l, sel e ∧ g e = .ninf) →
      l.foldl (fun x e => if sel e then x + g e else x) x = .ninf := by
  induction l with
  | nil => intro x _ h; simpa using h
  | cons e l ih =>
    intro x hx h
    rw [List.foldl_cons]
    have ih' := ih (fun e' he' => hg e' (List.mem_cons_of_mem _ he'))
    by_cases hs : sel e
    · rw [if_pos hs]
      have hge := hg e List.mem_cons_self hs
      apply ih'
      · rcases hx with ⟨r, rfl⟩ | rfl <;> rcases hge with ⟨r', h'⟩ | h' <;> rw [h'] <;> simp
      · rcases h with rfl | ⟨e', he', hse, hge'⟩
        · left; rcases hge with ⟨r', h'⟩ | h' <;> rw [h'] <;> simp
        · rcases List.mem_cons.mp he' with rfl | he'
          · left; rcases hx with ⟨r, rfl⟩ | rfl <;> rw [hge'] <;> simp
          · right; exact ⟨e', he', hse, hge'⟩
    · rw [if_neg hs]
      apply ih' x hx
      rcases h with h | ⟨e', he', hse, hge'⟩
      · left; exact h
      · rcases List.mem_cons.mp he' with rfl | he'
        · exact absurd hse hs
        · right; exact ⟨e', he', hse, hge'⟩

/-- **C04 (b).** When a chosen alternative is unavailable (choices non-negative, weight positive) the log
likelihood of the case is `-inf`, never NaN or a finite number. -/
theorem C04_chosen_unavailable {T : Tree} {M : Terms} {θ : Nat → ℝ} {C : Case}
    (hD : DenseCase T M θ C) (hch0 : ∀ a < T.nAlts, 0 ≤ C.ch a) (hwt : 0 < C.wt)
    {a : Nat} (ha : a < T.nAlts) (hc : 0 < C.ch a) (hav : C.av a = false) (hold : Nat → Bool) (W : Work) :
    (runCase T M hold θ C W).loglike = .ninf := by
  have h := hD.wf
  have hU := run_utility hD hold W
  show (logprobPass T θ (runCase T M hold θ C W).utility (cascadeSum T C.ch) C.wt W.logprob).2 = _
  rw [logprobPass_snd]
  have he : ∀ e ∈ T.edges, edgeLogprob T θ (runCase T M hold θ C W).utility e =
      emb ((shapeOf T C.av).avail e.2) ((caseValue T M θ C e.2 - caseValue T M θ C e.1) / muN T θ e.1) :=
    fun e he => edgeLogprob_eq h θ _ C.av (caseValue T M θ C) (muN_pos hD.mu) hU (p := e.1) (c := e.2) he
  have hpos : ∀ e ∈ T.edges, cascadeSum T C.ch e.2 ≠ 0 → 0 < cascadeSum T C.ch e.2 := fun e _ hne =>
    lt_of_le_of_ne (cascadeSum_nonneg h C.ch hch0 e.2) (Ne.symm hne)
  have hmul : ∀ r : ℝ, 0 < r → X.ninf * X.fin r = X.ninf := by
    intro r hr
    show X.mul _ _ = _
    simp [X.mul, X.infSign, hr]
  apply fold_ninf T.edges (fun e => edgeLogprob T θ (runCase T M hold θ C W).utility e *
    .fin (cascadeSum T C.ch e.2) * .fin C.wt) (fun e => cascadeSum T C.ch e.2 ≠ 0)
  · intro e hmem hs
    rw [he e hmem]
    unfold emb
    split_ifs
    · left; exact ⟨_, rfl⟩
    · right; rw [hmul _ (hpos e hmem hs), hmul _ hwt]
  · left; exact ⟨0, rfl⟩
  · right
    obtain ⟨p, hp⟩ := h.covered a (by have := h.root; omega)
    have hs : cascadeSum T C.ch a ≠ 0 := by rw [cascadeSum_alt h C.ch ha]; exact ne_of_gt hc
    refine ⟨(p, a), hp, hs, ?_⟩
    rw [he _ hp]
    have : ¬ (shapeOf T C.av).avail a := by rw [avail_alt _ ha, hav]; simp
    simp only [emb, this, if_false]
    rw [hmul _ (hpos (p, a) hp hs), hmul _ hwt]

example (W : Work) : (runCase demoTree demoTerms (fun _ => false) demoTheta
    { demoCase with ch := fun a => if a = 2 then 1 else 0 } W).loglike = .ninf := by
  have hD : DenseCase demoTree demoTerms demoTheta { demoCase with ch := fun a => if a = 2 then 1 else 0 } :=
    ⟨demoTree_wf, rfl, demo_dense.mu, ⟨demo_dense.data.ca, demo_dense.data.co⟩, demo_dense.size, demo_dense.co⟩
  apply C04_chosen_unavailable hD _ _ (a := 2) (by decide) _ rfl
  · intro a _; simp only; split_ifs <;> norm_num
  · norm_num [demoCase]
  · norm_num

end Larch.Props
