import Verif.Lemmas.KernelDeriv

namespace Larch.Kernel

open Function Larch Larch.Spec
open scoped BigOperators
open Classical

theorem muN_pos {T : Tree} {θ : Nat → ℝ} (h : ∀ n, T.nAlts ≤ n → n < T.nNodes → 0 < muN T θ n) :
    ∀ k, T.nAlts + k < T.nNodes → 0 < muOf T θ k := by
  intro k hk
  have := h (T.nAlts + k) (by omega) hk
  rw [show muN T θ (T.nAlts + k) = muOf T θ (T.nAlts + k - T.nAlts) from rfl] at this
  rwa [Nat.add_sub_cancel_left] at this

section run

variable {T : Tree} {M : Terms} {θ : Nat → ℝ} {C : Case}

theorem dense_assemble (hD : DenseCase T M θ C) (hold : Nat → Bool) :
    (∀ a < T.nAlts, (assemble θ hold T.nAlts M { C with av := cascadeOr T C.av }).U a =
        emb (C.av a = true) (utility M θ (coReal C) (caReal C) a)) ∧
    (∀ n, T.nAlts ≤ n → (assemble θ hold T.nAlts M { C with av := cascadeOr T C.av }).U n = .fin 0) ∧
    (∀ n p, (assemble θ hold T.nAlts M { C with av := cascadeOr T C.av }).dU n p =
      .fin (if n < T.nAlts ∧ C.av n = true then codeCoef hold M θ (coReal C) (caReal C) n p else 0)) := by
  have hal : ∀ a < T.nAlts, cascadeOr T C.av a = C.av a := fun a ha => cascadeOr_alt hD.wf C.av ha
  have hF : FiniteData T.nAlts M { C with av := cascadeOr T C.av } := by
    refine ⟨fun a ha hav => hD.data.ca a ha (by rw [← hal a ha]; exact hav), ?_⟩
    intro t ht hlt hav
    exact hD.data.co t ht hlt (by rw [← hal _ hlt]; exact hav)
  have hP : PositiveSize T.nAlts M θ { C with av := cascadeOr T C.av } := by
    intro hq a ha hav
    exact hD.size hq a ha (by rw [← hal a ha]; exact hav)
  obtain ⟨h1, h2, h3⟩ := assemble_dense_real θ hold T.nAlts M { C with av := cascadeOr T C.av } hD.dense hF hP hD.co
  refine ⟨fun a ha => ?_, h2, fun n p => ?_⟩
  · rw [h1 a ha]
    simp only [hal a ha]
    rfl
  · rw [h3 n p]
    congr 1
    by_cases hn : n < T.nAlts
    · simp only [hal n hn]; rfl
    · simp [hn]

theorem run_utility (hD : DenseCase T M θ C) (hold : Nat → Bool) (W : Work) :
    ∀ n < T.nNodes, (runCase T M hold θ C W).utility n =
      emb ((shapeOf T C.av).avail n) (caseValue T M θ C n) := by
  obtain ⟨h1, h2, _⟩ := dense_assemble hD hold
  exact upPass_value hD.wf θ _ C.av _ (muN_pos hD.mu) h1 (fun n hn _ => h2 n hn)

theorem run_cond (hD : DenseCase T M θ C) (hold : Nat → Bool) (W : Work) :
    ∀ p c, (p, c) ∈ T.edges → (shapeOf T C.av).avail c → (runCase T M hold θ C W).logprob c =
      .fin (Real.exp ((caseValue T M θ C c - caseValue T M θ C p) / muN T θ p)) := by
  intro p c he ha
  have hU := run_utility hD hold W
  have hpc := hD.wf.edge _ he
  simp only at hpc
  show condOf T.nNodes (cascadeOr T C.av) (logprobPass T θ (runCase T M hold θ C W).utility _ _ W.logprob).1 c = _
  unfold condOf
  rw [if_pos ⟨by omega, (cascadeOr_avail hD.wf C.av c).mpr ha⟩, logprobPass_at hD.wf _ _ _ _ _ he]
  rw [edgeLogprob_eq hD.wf θ _ C.av (caseValue T M θ C) (muN_pos hD.mu) hU he]
  simp [emb, ha]

theorem run_prob (hD : DenseCase T M θ C) (hold : Nat → Bool) (W : Work) :
    ∀ n < T.nNodes, (runCase T M hold θ C W).probability n = .fin (caseProb T M θ C n) :=
  probPass_value hD.wf θ C.av _ (muN_pos hD.mu) _ (cascadeOr_avail hD.wf C.av) _ W.probability
    (run_cond hD hold W)

theorem run_loglike (hD : DenseCase T M θ C) (hold : Nat → Bool) (W : Work)
    (hch : ∀ a < T.nAlts, C.ch a ≠ 0 → C.av a = true) :
    (runCase T M hold θ C W).loglike = .fin (caseLoglike T M θ C) :=
  logprobPass_loglike hD.wf θ _ C.av _ C.ch C.wt W.logprob (muN_pos hD.mu) (run_utility hD hold W) hch

/-- conditional probability by child -/
noncomputable def kOf (T : Tree) (M : Terms) (θ : Nat → ℝ) (C : Case) (c : Nat) : ℝ :=
  if h : ∃ p, (p, c) ∈ T.edges then
    Real.exp ((caseValue T M θ C c - caseValue T M θ C h.choose) / muN T θ h.choose) else 0

theorem kOf_edge (h : T.WF) {p c : Nat} (he : (p, c) ∈ T.edges) :
    kOf T M θ C c = Real.exp ((caseValue T M θ C c - caseValue T M θ C p) / muN T θ p) := by
  have hex : ∃ p, (p, c) ∈ T.edges := ⟨p, he⟩
  have hp : hex.choose = p := edge_parent_unique h hex.choose_spec he
  unfold kOf
  rw [dif_pos hex, hp]

/-- the raw utility gradient -/
noncomputable def d0Of (T : Tree) (M : Terms) (hold : Nat → Bool) (θ : Nat → ℝ) (C : Case) (n p : Nat) : ℝ :=
  if n < T.nAlts ∧ C.av n = true then codeCoef hold M θ (coReal C) (caReal C) n p else 0

/-- the probability gradient row the code computes -/
noncomputable def dPOf (T : Tree) (M : Terms) (hold : Nat → Bool) (θ : Nat → ℝ) (C : Case) (n p : Nat) : ℝ :=
  codeDP T θ (cascadeSum T C.ch) (caseValue T M θ C) (kOf T M θ C) (caseProb T M θ C)
    (codeRow T θ (cascadeOr T C.av) (caseValue T M θ C) (kOf T M θ C) (d0Of T M hold θ C)) n p

theorem run_grad_floor (hD : DenseCase T M θ C) (hold : Nat → Bool) (W : Work)
    (hch : ∀ a < T.nAlts, C.ch a ≠ 0 → C.av a = true) :
    (∀ p, (runCase T M hold θ C W).dLoglike p =
      .fin (C.wt * ∑ a ∈ Finset.range T.nAlts, C.ch a * (dPOf T M hold θ C a p / max (caseProb T M θ C a) (1 / 10 ^ 250)))) ∧
    (∀ p q, (runCase T M hold θ C W).bhhh p q =
      .fin (C.wt * ∑ a ∈ Finset.range T.nAlts, C.ch a * ((dPOf T M hold θ C a p / max (caseProb T M θ C a) (1 / 10 ^ 250)) *
        (dPOf T M hold θ C a q / max (caseProb T M θ C a) (1 / 10 ^ 250))))) := by
  have h := hD.wf
  have hav := cascadeOr_avail h C.av
  have hU := run_utility hD hold W
  have hk : ∀ e ∈ T.edges, cascadeOr T C.av e.2 = true →
      (runCase T M hold θ C W).logprob e.2 = .fin (kOf T M θ C e.2) := by
    rintro ⟨p, c⟩ he ha
    rw [run_cond hD hold W p c he ((hav c).mp ha), kOf_edge h he]
  have hUn : ∀ n < T.nNodes, cascadeOr T C.av n = true →
      (runCase T M hold θ C W).utility n = .fin (caseValue T M θ C n) := by
    intro n hn ha
    rw [hU n hn]; simp [emb, (hav n).mp ha]
  have hrow := fun (n : Nat) (hn : n < T.nNodes) (ha : cascadeOr T C.av n = true) (p : Nat) =>
    dUtilPass_row h θ (cascadeOr T C.av) (runCase T M hold θ C W).utility (runCase T M hold θ C W).logprob
      (caseValue T M θ C) (kOf T M θ C) (d0Of T M hold θ C)
      (assemble θ hold T.nAlts M { C with av := cascadeOr T C.av }).dU
      (by
        intro n s h1 h2 h3
        have := hD.mu n h1 h2
        unfold slotIs at h3
        unfold muN at this
        rw [h3] at this
        exact ne_of_gt this)
      (fun e he ha => hUn e.2 (lt_trans (h.edge e he).1 (h.edge e he).2.2) ha) hk
      (dense_assemble hD hold).2.2 hn ha p
  have hDP := dProbPass_real h θ (cascadeOr T C.av) (cascadeSum T C.ch) (runCase T M hold θ C W).utility
    (runCase T M hold θ C W).logprob (runCase T M hold θ C W).probability
    (dUtilPass T θ (cascadeOr T C.av) (runCase T M hold θ C W).utility (runCase T M hold θ C W).logprob
      (assemble θ hold T.nAlts M { C with av := cascadeOr T C.av }).dU)
    (caseValue T M θ C) (kOf T M θ C) (caseProb T M θ C)
    (codeRow T θ (cascadeOr T C.av) (caseValue T M θ C) (kOf T M θ C) (d0Of T M hold θ C))
    (fun n h1 h2 => ne_of_gt (hD.mu n h1 h2))
    (fun n _ hc => (hav n).mpr (chosen_avail h C.av C.ch hch n hc))
    (fun e he ha => (hav _).mpr (avail_parent h C.av (p := e.1) (c := e.2) he ((hav _).mp ha)))
    hUn hk (run_prob hD hold W) hrow
  have hca : ∀ a < T.nAlts, cascadeSum T C.ch a = C.ch a := fun a ha => cascadeSum_alt h C.ch ha
  have := dLoglike_floor T.nAlts (cascadeSum T C.ch) C.wt (runCase T M hold θ C W).probability
    (dProbPass T θ (cascadeSum T C.ch) (runCase T M hold θ C W).utility
    (runCase T M hold θ C W).logprob (runCase T M hold θ C W).probability
    (dUtilPass T θ (cascadeOr T C.av) (runCase T M hold θ C W).utility (runCase T M hold θ C W).logprob
      (assemble θ hold T.nAlts M { C with av := cascadeOr T C.av }).dU))
    (caseProb T M θ C) (dPOf T M hold θ C)
    (fun a ha => run_prob hD hold W a (lt_trans ha h.root))
    (fun a ha p => hDP a (lt_trans ha h.root) p)
    (fun a ha hc => prob_pos h C.av _ _ a (lt_trans ha h.root)
      ((avail_alt C.av ha).mpr (hch a ha (by rw [← hca a ha]; exact hc))))
  constructor
  · intro p
    refine (this.1 p).trans ?_
    congr 2
    apply Finset.sum_congr rfl
    intro a ha
    rw [hca a (Finset.mem_range.mp ha)]
  · intro p q
    refine (this.2 p q).trans ?_
    congr 2
    apply Finset.sum_congr rfl
    intro a ha
    rw [hca a (Finset.mem_range.mp ha)]

theorem run_grad (hD : DenseCase T M θ C) (hold : Nat → Bool) (W : Work)
    (hch : ∀ a < T.nAlts, C.ch a ≠ 0 → C.av a = true)
    (hpos : ∀ a < T.nAlts, C.ch a ≠ 0 → 1 / 10 ^ 250 ≤ caseProb T M θ C a) :
    (∀ p, (runCase T M hold θ C W).dLoglike p =
      .fin (C.wt * ∑ a ∈ Finset.range T.nAlts, C.ch a * (dPOf T M hold θ C a p / caseProb T M θ C a))) ∧
    (∀ p q, (runCase T M hold θ C W).bhhh p q =
      .fin (C.wt * ∑ a ∈ Finset.range T.nAlts, C.ch a * ((dPOf T M hold θ C a p / caseProb T M θ C a) *
        (dPOf T M hold θ C a q / caseProb T M θ C a)))) := by
  obtain ⟨h1, h2⟩ := run_grad_floor hD hold W hch
  have hm : ∀ a < T.nAlts, C.ch a ≠ 0 → max (caseProb T M θ C a) (1 / 10 ^ 250) = caseProb T M θ C a :=
    fun a ha hc => max_eq_left (hpos a ha hc)
  constructor
  · intro p
    rw [h1 p]
    congr 2
    apply Finset.sum_congr rfl
    intro a ha
    by_cases hc : C.ch a = 0
    · rw [hc, zero_mul, zero_mul]
    · rw [hm a (Finset.mem_range.mp ha) hc]
  · intro p q
    rw [h2 p q]
    congr 2
    apply Finset.sum_congr rfl
    intro a ha
    by_cases hc : C.ch a = 0
    · rw [hc, zero_mul, zero_mul]
    · rw [hm a (Finset.mem_range.mp ha) hc]

/-! ### the gradient is the derivative -/

theorem codeCoef_eq (hold : Nat → Bool) (co : Nat → ℝ) (ca : Nat → Nat → ℝ) (a p : Nat)
    (hp : hold p = false) (hocc : occ M.q p ≤ 1) :
    codeCoef hold M θ co ca a p = sizeCoef M θ ca a p + linCoef M co ca a p := by
  unfold codeCoef codeSizeCoef sizeCoef
  simp only [hp, Bool.false_eq_true, if_false]
  by_cases hq : M.q = []
  · simp [hq]
  · simp only [if_neg hq]
    by_cases ho : occ M.q p = 1
    · rw [ho, pow_one]
    · have h0 : occ M.q p = 0 := by omega
      have : M.q.filter (fun t => t.param = p) = [] := List.length_eq_zero_iff.mp h0
      rw [this]
      simp [size]

theorem cascadeSum_nonneg (h : T.WF) (ch : Nat → ℝ) (hch : ∀ a < T.nAlts, 0 ≤ ch a) :
    ∀ n, 0 ≤ cascadeSum T ch n := by
  intro n
  induction n using Nat.strong_induction_on with
  | _ n ih =>
    by_cases hn : n < T.nAlts
    · rw [cascadeSum_alt h ch hn]; exact hch n hn
    · rw [cascadeSum_nest h ch (by omega)]
      apply List.sum_nonneg
      intro x hx
      obtain ⟨c, hc, rfl⟩ := List.mem_map.mp hx
      exact ih c (h.kids_lt hc)

theorem cascadeSum_up (h : T.WF) (ch : Nat → ℝ) (hch : ∀ a < T.nAlts, 0 ≤ ch a) {n c : Nat}
    (he : (n, c) ∈ T.edges) (hc : cascadeSum T ch c ≠ 0) : cascadeSum T ch n ≠ 0 := by
  have hpos : 0 < cascadeSum T ch c := lt_of_le_of_ne (cascadeSum_nonneg h ch hch c) (Ne.symm hc)
  rw [cascadeSum_nest h ch (h.edge _ he).2.1]
  apply ne_of_gt
  apply lt_of_lt_of_le hpos
  apply List.single_le_sum
  · intro x hx
    obtain ⟨c, hc, rfl⟩ := List.mem_map.mp hx
    exact cascadeSum_nonneg h ch hch c
  · exact List.mem_map.mpr ⟨c, mem_kids.mpr he, rfl⟩

theorem muN_hasDeriv (T : Tree) (θ : Nat → ℝ) (p n : Nat) :
    HasDerivAt (fun t => muN T (update θ p t) n) (if slotIs T n p then 1 else 0) (θ p) := by
  unfold muN slotIs
  cases T.muSlot (n - T.nAlts) with
  | none => simpa using hasDerivAt_const (θ p) (1 : ℝ)
  | some s =>
    by_cases hs : s = p
    · subst hs; simp only [update_self, if_true]; exact hasDerivAt_id _
    · simp only [update_of_ne hs, Option.some.injEq, if_neg hs]
      exact hasDerivAt_const _ _

theorem notInUtility_coef {p : Nat} (hn : NotInUtility M p) (co : Nat → ℝ) (ca : Nat → Nat → ℝ) (a : Nat) :
    sizeCoef M θ ca a p + linCoef M co ca a p = 0 := by
  obtain ⟨h1, h2, h3⟩ := hn
  have e1 : M.q.filter (fun t => t.param = p) = [] := by
    rw [List.filter_eq_nil_iff]; intro t ht; simp [h1 t (List.mem_append_left _ ht)]
  have e2 : M.ca.filter (fun t => t.param = p) = [] := by
    rw [List.filter_eq_nil_iff]; intro t ht; simp [h1 t (List.mem_append_right _ ht)]
  have e3 : M.co.filter (fun t => t.alt = a ∧ t.param = p) = [] := by
    rw [List.filter_eq_nil_iff]; intro t ht; simp [h2 t ht]
  unfold sizeCoef linCoef
  rw [e1, e2, e3, if_neg h3]
  simp [size]

/-- The probability gradient computed by the code is the derivative of the probability. -/
theorem dPOf_hasDeriv (hD : DenseCase T M θ C) (hold : Nat → Bool) (p : Nat)
    (hp : hold p = false) (hocc : occ M.q p ≤ 1)
    (hroot : T.muSlot (T.nNodes - 1 - T.nAlts) ≠ some p)
    (hsep : SeparateLogsums T M)
    (hch : ∀ a < T.nAlts, C.ch a ≠ 0 → C.av a = true) (hch0 : ∀ a < T.nAlts, 0 ≤ C.ch a) :
    ∀ a < T.nAlts, C.ch a ≠ 0 →
      HasDerivAt (fun t => caseProb T M (update θ p t) C a) (dPOf T M hold θ C a p) (θ p) := by
  have h := hD.wf
  have hav := cascadeOr_avail h C.av
  have hm0 : ∀ n, T.nAlts ≤ n → n < T.nNodes → muN T θ n ≠ 0 := fun n h1 h2 => ne_of_gt (hD.mu n h1 h2)
  set u := utility M θ (coReal C) (caReal C) with hu
  set du : Nat → ℝ := fun a => sizeCoef M θ (caReal C) a p + linCoef M (coReal C) (caReal C) a p with hdu
  have hk : ∀ n c, (n, c) ∈ T.edges → (shapeOf T C.av).avail c →
      kOf T M θ C c = kap T C.av (muN T θ) u n c := by
    intro n c he ha
    have hn := h.edge _ he
    simp only at hn
    rw [kOf_edge h he]
    exact cond_ratio h C.av _ _ hn.2.1 (avail_parent h C.av he ha) (hm0 n hn.2.1 hn.2.2)
  have hG := codeG_eq_Vd h θ C.av (cascadeOr T C.av) u du (kOf T M θ C) (d0Of T M hold θ C) p hav hm0 hk
    (fun a ha haa => by
      unfold d0Of
      rw [if_pos ⟨ha, haa⟩, codeCoef_eq hold _ _ a p hp hocc])
    (fun n hn => by unfold d0Of; rw [if_neg (by omega)])
    (fun n c he hca hs => by
      have hn := h.edge _ he
      simp only at hn
      obtain ⟨s1, s2⟩ := hsep n p hn.2.1 hn.2.2 hs
      have hb : Below T n c := Relation.TransGen.single he
      apply Vd_zero
      · intro _ _; exact notInUtility_coef s1 _ _ _
      · intro hc; exact if_neg (s2 c hc hb)
      · intro x hx
        refine ⟨fun _ _ => notInUtility_coef s1 _ _ _, fun hc => if_neg (s2 x hc (hb.trans hx))⟩
      · exact hca)
  have hrow : ∀ n < T.nNodes, (shapeOf T C.av).avail n →
      codeRow T θ (cascadeOr T C.av) (caseValue T M θ C) (kOf T M θ C) (d0Of T M hold θ C) n p =
        Vd T C.av (muN T θ) u (fun n => if slotIs T n p then 1 else 0) du n := by
    intro n hn ha
    have := hG n ha
    unfold codeRow
    by_cases hr : n = T.nNodes - 1
    · rw [if_pos hr, ← this, codeG_eq, if_neg]
      · rfl
      · rintro ⟨_, hs⟩
        rw [hr] at hs
        exact hroot hs
    · rw [if_neg hr, ← this]; rfl
  have hfin := codeDP_hasDeriv h θ C.av (fun t => muN T (update θ p t))
    (fun t => utility M (update θ p t) (coReal C) (caReal C)) du (kOf T M θ C) (cascadeSum T C.ch)
    (codeRow T θ (cascadeOr T C.av) (caseValue T M θ C) (kOf T M θ C) (d0Of T M hold θ C)) p (θ p)
    (by rw [update_eq_self]) (by rw [update_eq_self]; exact hm0) (fun n _ => muN_hasDeriv T θ p n)
    (fun a ha haa => utility_hasDeriv M θ (coReal C) (caReal C) a p (fun hq => hD.size hq a ha haa))
    (by rw [update_eq_self]; exact hk) (by rw [update_eq_self]; exact hrow)
    (fun n _ hc => chosen_avail h C.av C.ch hch n hc)
    (fun n c he hc => cascadeSum_up h C.ch hch0 he hc)
  intro a ha hca
  have := hfin a (lt_trans ha h.root) (Or.inr (by rw [cascadeSum_alt h C.ch ha]; exact hca))
  rw [update_eq_self] at this
  exact this

theorem caseLoglike_hasDeriv (hD : DenseCase T M θ C) (hold : Nat → Bool) (p : Nat)
    (hp : hold p = false) (hocc : occ M.q p ≤ 1)
    (hroot : T.muSlot (T.nNodes - 1 - T.nAlts) ≠ some p)
    (hsep : SeparateLogsums T M)
    (hch : ∀ a < T.nAlts, C.ch a ≠ 0 → C.av a = true) (hch0 : ∀ a < T.nAlts, 0 ≤ C.ch a) :
    HasDerivAt (fun t => caseLoglike T M (update θ p t) C)
      (C.wt * ∑ a ∈ Finset.range T.nAlts, C.ch a * (dPOf T M hold θ C a p / caseProb T M θ C a)) (θ p) := by
  unfold caseLoglike Shape.loglike
  apply HasDerivAt.const_mul
  apply HasDerivAt.fun_sum
  intro a ha
  have ha' : a < T.nAlts := Finset.mem_range.mp ha
  by_cases hc : C.ch a = 0
  · simp only [hc, zero_mul]; exact hasDerivAt_const _ _
  · apply HasDerivAt.const_mul
    have hpos : 0 < caseProb T M θ C a :=
      prob_pos hD.wf C.av _ _ a (lt_trans ha' hD.wf.root) ((avail_alt C.av ha').mpr (hch a ha' hc))
    have h1 := (dPOf_hasDeriv hD hold p hp hocc hroot hsep hch hch0 a ha' hc).log
      (by rw [update_eq_self]; exact ne_of_gt hpos)
    rw [update_eq_self] at h1
    exact h1

/-- The standing conditions hold in a neighbourhood. -/
theorem denseCase_eventually (hD : DenseCase T M θ C) (p : Nat) :
    ∀ᶠ t in nhds (θ p), DenseCase T M (update θ p t) C := by
  have h1 : ∀ᶠ t in nhds (θ p), ∀ n ∈ Finset.range T.nNodes, T.nAlts ≤ n → 0 < muN T (update θ p t) n := by
    rw [Filter.eventually_all_finset]
    intro n hn
    by_cases hna : T.nAlts ≤ n
    · have hc := (muN_hasDeriv T θ p n).continuousAt
      have h0 : 0 < muN T (update θ p (θ p)) n := by
        rw [update_eq_self]; exact hD.mu n hna (Finset.mem_range.mp hn)
      filter_upwards [hc.eventually (lt_mem_nhds h0)] with t ht _ using ht
    · filter_upwards with t h using absurd h hna
  have h2 : ∀ᶠ t in nhds (θ p), ∀ a ∈ Finset.range T.nAlts, M.q ≠ [] → C.av a = true →
      0 < Spec.size (update θ p t) M.q (caReal C a) := by
    rw [Filter.eventually_all_finset]
    intro a ha
    by_cases hq : M.q ≠ [] ∧ C.av a = true
    · have hc := (size_hasDeriv θ M.q (caReal C a) p).continuousAt
      have h0 : 0 < Spec.size (update θ p (θ p)) M.q (caReal C a) := by
        rw [update_eq_self]; exact hD.size hq.1 a (Finset.mem_range.mp ha) hq.2
      filter_upwards [hc.eventually (lt_mem_nhds h0)] with t ht _ _ using ht
    · filter_upwards with t h1 h2 using absurd ⟨h1, h2⟩ hq
  filter_upwards [h1, h2] with t ht1 ht2
  exact ⟨hD.wf, hD.dense, fun n ha hn => ht1 n (Finset.mem_range.mpr hn) ha, hD.data,
    fun hq a ha haa => ht2 a (Finset.mem_range.mpr ha) hq haa, hD.co⟩

end run

end Larch.Kernel
