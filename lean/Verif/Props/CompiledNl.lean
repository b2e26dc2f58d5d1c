import Verif.Lemmas.CompiledBridge
import Verif.Props.CompiledMnl

/-!
# C74, C75, C76: nested and network logit in the compiled engine
-/

namespace Larch.Props

open Function Larch Larch.Kernel Larch.Compiled Larch.Spec
open scoped BigOperators
open Classical

variable {T : Tree} {M : Terms} {θ : Nat → ℝ} {C : Case} {A : Nat → Bool} {x : Nat → Nat → ℝ}

/-! ## C74 -/

theorem root_offered (h : Network T) (ho : ∃ a < T.nAlts, A a = true) : (netOf T A).avail (T.nNodes - 1) := by
  obtain ⟨a, ha, hA⟩ := ho
  have key := net_down h (motive := fun n => (netOf T A).avail n → (netOf T A).avail (T.nNodes - 1)) (fun h => h) (by
    intro n hn ih hav
    obtain ⟨p, hp⟩ := h.covered n hn
    exact ih p hp (net_avail_parent h hp hav))
  exact key a (lt_trans ha h.root) ((net_avail_alt ha).mpr hA)

/-- **C74 (probabilities).** On any acyclic network - nodes may have several parents - the compiled probabilities of all
nodes are those of the network logit model with equal shares; those of the alternatives add up to 1, and an alternative that is
not offered has probability 0. -/
theorem C74_probability (h : NetworkCase T M θ C A x) (hold : Nat → Bool) (ho : ∃ a < T.nAlts, A a = true) :
    (∀ n < T.nNodes, (nlCase T M hold θ C).probability n = .fin (netProb T M θ C A x n)) ∧
    ∑ a ∈ Finset.range T.nAlts, netProb T M θ C A x a = 1 ∧
    ∀ a < T.nAlts, 0 ≤ netProb T M θ C A x a ∧ (A a = false → netProb T M θ C A x a = 0) := by
  refine ⟨fun n hn => run_P h hold hn, net_prob_sum h.net (root_offered h.net ho), fun a ha => ⟨?_, fun hA => ?_⟩⟩
  · exact net_prob_nonneg h.net a (lt_trans ha h.net.root)
  · have hr := h.net.root
    unfold netProb
    rw [net_prob h.net (by omega), if_neg]
    rw [net_avail_alt ha, hA]; simp

/-- **C74 (log likelihood).** -/
theorem C74_loglike (h : NetworkCase T M θ C A x) (hold : Nat → Bool) (hch : ∀ a < T.nAlts, C.ch a ≠ 0 → A a = true) :
    (nlCase T M hold θ C).ll = .fin (netLoglike T M θ C A x) := run_ll h hold hch

theorem shift_zero {n : Nat} {u : Nat → ℝ} (hle : ∀ a < n, A a = true → u a ≤ 500) : shiftV n A u = 0 := by
  unfold shiftV
  rw [if_neg]
  obtain ⟨_, _, h3⟩ := maxV_spec n A u
  rcases h3 with h3 | ⟨b, hb, hB, h3⟩
  · rw [h3]; norm_num
  · rw [h3]; exact not_lt.mpr (hle b hb hB)

/-- **C74 (logsums), without utilities above 500.** The reported logsum is the value of the root. -/
theorem C74_logsum_partial (h : NetworkCase T M θ C A x) (hold : Nat → Bool) (ho : ∃ a < T.nAlts, A a = true)
    (hle : ∀ a < T.nAlts, A a = true → utility M θ (coReal C) x a ≤ 500) :
    nlLogsum T M hold θ C = .fin (netLogsum T M θ C A x) := by
  have hr := h.net.root
  unfold nlLogsum
  rw [run_U h hold (by omega)]
  unfold emb
  rw [if_pos (root_offered h.net ho)]
  unfold shVal shifted netLogsum
  simp only [shift_zero hle, sub_zero]

/-- **C74 (what is reported otherwise).** With some offered utility above 500 the reported logsum is too small by the largest
offered utility. -/
theorem C74_logsum_shifted (h : NetworkCase T M θ C A x) (hold : Nat → Bool) {b : Nat} (hb : b < T.nAlts) (hB : A b = true)
    (hmax : ∀ a < T.nAlts, A a = true → utility M θ (coReal C) x a ≤ utility M θ (coReal C) x b)
    (hgt : 500 < utility M θ (coReal C) x b) :
    nlLogsum T M hold θ C = .fin (netLogsum T M θ C A x - utility M θ (coReal C) x b) := by
  have hr := h.net.root
  have ho : ∃ a < T.nAlts, A a = true := ⟨b, hb, hB⟩
  obtain ⟨_, h2, h3⟩ := maxV_spec T.nAlts A (utility M θ (coReal C) x)
  have hm : maxV T.nAlts A (utility M θ (coReal C) x) = utility M θ (coReal C) x b := by
    apply le_antisymm
    · rcases h3 with h3 | ⟨c, hc, hCc, h3⟩
      · rw [h3]; linarith
      · rw [h3]; exact hmax c hc hCc
    · exact h2 b hb hB
  unfold nlLogsum
  rw [run_U h hold (by omega)]
  unfold emb
  rw [if_pos (root_offered h.net ho)]
  unfold shVal netLogsum
  congr 1
  have := net_shift_value (mu := muN T θ) (u := utility M θ (coReal C) x) h.net (utility M θ (coReal C) x b)
    (fun n a b => ne_of_gt (h.mu n a b)) (T.nNodes - 1) (root_offered h.net ho)
  rw [← this]
  congr 1
  funext a
  unfold shifted shiftV
  rw [hm, if_pos hgt]

/-- Alternatives 0, 1, 2; nests 3 = {0, 1} and 4 = {1, 2} share alternative 1; root 5 = {3, 4}. -/
def crossTree : Tree where
  nAlts := 3
  nNodes := 6
  edges := [(3, 0), (3, 1), (4, 1), (4, 2), (5, 3), (5, 4)]
  muSlot k := if k < 2 then some 1 else none
  start k := 2 * k
  len _ := 2

theorem crossTree_net : Network crossTree where
  root := by decide
  edge := by decide
  sorted := by decide
  nodup := by decide
  covered := by
    intro n hn
    have : n + 1 < 6 := hn
    have : n = 0 ∨ n = 1 ∨ n = 2 ∨ n = 3 ∨ n = 4 := by omega
    rcases this with rfl | rfl | rfl | rfl | rfl
    · exact ⟨3, by decide⟩
    · exact ⟨3, by decide⟩
    · exact ⟨4, by decide⟩
    · exact ⟨5, by decide⟩
    · exact ⟨5, by decide⟩
  slots := by
    intro k hk
    have : 3 + k < 6 := hk
    have : k = 0 ∨ k = 1 ∨ k = 2 := by omega
    rcases this with rfl | rfl | rfl <;> decide

theorem cross_demo : NetworkCase crossTree demoTerms demoTheta demoCase demoCase.av (caReal demoCase) where
  net := crossTree_net
  mu := by
    intro n h1 h2
    have h1 : 3 ≤ n := h1
    have h2 : n < 6 := h2
    have : n = 3 ∨ n = 4 ∨ n = 5 := by omega
    rcases this with rfl | rfl | rfl <;> norm_num [muN, crossTree, demoTheta]
  offers := (offers_of_dense demo_dense).1
  sizes := (offers_of_dense demo_dense).2

theorem cross_chosen : ∀ a < crossTree.nAlts, demoCase.ch a ≠ 0 → demoCase.av a = true := demo_chosen

/-- A cross-nested network with an unavailable alternative whose data is NaN. -/
example := C74_probability cross_demo (fun _ => false) ⟨0, by decide, rfl⟩
example := C74_loglike cross_demo (fun _ => false) cross_chosen
example := C74_logsum_partial cross_demo (fun _ => false) ⟨0, by decide, rfl⟩ (fun a ha hA => by
    have ha2 : a ≤ 1 := by simpa [demoCase] using hA
    have : a = 0 ∨ a = 1 := by omega
    rcases this with rfl | rfl <;>
    simp [utility, demoTerms, demoTheta, sizeScale, size, caReal, demoCase, coValue] <;> norm_num)

theorem plain_network {T : Tree} (h : Network T) (θ : Nat → ℝ) (a0 : Nat)
    (hmu : ∀ n, T.nAlts ≤ n → n < T.nNodes → 0 < muN T θ n) : NetworkCase T noTerms θ (plainCase a0) (fun _ => true) (fun _ _ => 0) where
  net := h
  mu := hmu
  offers := ⟨fun _ a _ => ⟨rfl, fun _ t ht => by simp [noTerms] at ht⟩, fun rows hr => by simp [plainCase] at hr,
    fun t ht => by simp [noTerms] at ht⟩
  sizes := fun hq => absurd rfl hq

theorem const_network {T : Tree} (h : Network T) (hn : 0 < T.nAlts) (θ : Nat → ℝ) (a0 : Nat)
    (hmu : ∀ n, T.nAlts ≤ n → n < T.nNodes → 0 < muN T θ n) : NetworkCase T constTerms θ (plainCase a0) (fun _ => true) (fun _ _ => 0) where
  net := h
  mu := hmu
  offers := ⟨fun _ a _ => ⟨rfl, fun _ t ht => by simp [constTerms] at ht⟩, fun rows hr => by simp [plainCase] at hr,
    fun t ht => by simp [constTerms] at ht; subst ht; exact ⟨hn, fun _ d hd => by simp at hd⟩⟩
  sizes := fun hq => absurd rfl hq

/-- **C74 violated (logsums).** With a constant of 501 the reported logsum is 501 less than the logsum. -/
theorem C74_fails_logsum :
    nlLogsum crossTree constTerms (fun _ => false) (fun _ => 501) (plainCase 0) =
      .fin (netLogsum crossTree constTerms (fun _ => 501) (plainCase 0) (fun _ => true) (fun _ _ => 0) - 501) := by
  have h := const_network crossTree_net (by decide) (fun _ => 501) 0 (by
    intro n h1 h2
    unfold muN; split <;> norm_num)
  have hu := const_utility (fun _ => 501)
  have := C74_logsum_shifted h (fun _ => false) (b := 0) (by decide) rfl (fun a _ _ => by
    rw [hu, hu, if_pos rfl]; split_ifs <;> norm_num) (by rw [hu]; norm_num)
  rw [this, hu]; simp

/-! ## C75 -/

/-- **C75 (gradient), where the code is right.** For a free parameter the compiled gradient entry is the derivative of the
compiled log likelihood, alternatives being allowed to belong to several nests.

Missing, because the code violates it there (`C75_fails_…`): a nest with several parents, a logsum parameter on the root, a
logsum parameter shared with a descendant or a utility function, a parameter in two quantity terms. -/
theorem C75_gradient_partial (h : NetworkCase T M θ C A x) (h1 : SingleNests T) (hold : Nat → Bool) (p : Nat)
    (hp : hold p = false) (hq : (M.q.filter (fun t => t.param = p)).length ≤ 1)
    (hroot : T.muSlot (T.nNodes - 1 - T.nAlts) ≠ some p) (hsep : SeparateLogsums T M)
    (hch : ∀ a < T.nAlts, C.ch a ≠ 0 → A a = true) :
    ∃ (f : ℝ → ℝ) (g : ℝ), (∀ᶠ t in nhds (θ p), (nlCase T M hold (update θ p t) C).ll = .fin (f t)) ∧
      (nlCase T M hold θ C).dll p = .fin g ∧ HasDerivAt f g (θ p) := by
  obtain ⟨r, h2, h3⟩ := run_ll_hasDeriv h h1 hold p hp hq hroot hsep hch
  refine ⟨fun t => netLoglike T M (update θ p t) C A x, r, ?_, h2, h3⟩
  filter_upwards [networkCase_eventually h p] with t ht
  exact run_ll ht hold hch

/-- **C75 (BHHH).** Gradient and BHHH matrix are the weighted sums, over the chosen alternatives, of their scores and of the
products of their scores, a score being the derivative of the log probability for the parameters of `C75_gradient_partial`. -/
theorem C75_bhhh_partial (h : NetworkCase T M θ C A x) (h1 : SingleNests T) (hold : Nat → Bool) (hsep : SeparateLogsums T M)
    (hch : ∀ a < T.nAlts, C.ch a ≠ 0 → A a = true) :
    ∃ s : Nat → Nat → ℝ,
      (∀ a < T.nAlts, A a = true → ∀ p, hold p = false → (M.q.filter (fun t => t.param = p)).length ≤ 1 →
        T.muSlot (T.nNodes - 1 - T.nAlts) ≠ some p →
        HasDerivAt (fun t => Real.log (netProb T M (update θ p t) C A x a)) (s a p) (θ p)) ∧
      (∀ p, (nlCase T M hold θ C).dll p = .fin (C.wt * ∑ a ∈ Finset.range T.nAlts, C.ch a * s a p)) ∧
      (∀ p q, (nlCase T M hold θ C).bhhh p q = .fin (C.wt * ∑ a ∈ Finset.range T.nAlts, C.ch a * (s a p * s a q))) := by
  obtain ⟨Q, hQ, hQr, hQs⟩ := run_dP h hold
  obtain ⟨g1, g2⟩ := Compiled.run_grad h hold hch Q hQ
  refine ⟨fun a p => Q a p / netProb T M θ C A x a, ?_, g1, g2⟩
  intro a ha hA p hp hq hroot
  have hlt := lt_trans ha h.net.root
  have hav : (netOf T A).avail a := (net_avail_alt ha).mpr hA
  have hd := run_dP_hasDeriv h h1 hold p hp hq hroot hsep Q hQr hQs a hlt hav
  have := hd.log (by rw [update_eq_self]; exact ne_of_gt (net_prob_pos h.net a hlt hav))
  simpa [update_eq_self] using this

/-- **C75 (held-fast parameters).** On any network, including those where the gradient is wrong. -/
theorem C75_held_zero (h : NetworkCase T M θ C A x) (hold : Nat → Bool) (p : Nat) (hp : hold p = true)
    (hch : ∀ a < T.nAlts, C.ch a ≠ 0 → A a = true) : (nlCase T M hold θ C).dll p = .fin 0 := run_held_grad h hold p hp hch

theorem cross_below {n c : Nat} (hb : Below crossTree n c) : n = 5 ∨ c < 3 := by
  induction hb with
  | single h =>
    have h' : (n, _) ∈ crossTree.edges := h
    simp [crossTree] at h'; omega
  | tail h1 h2 ih =>
    rcases ih with ih | ih
    · exact Or.inl ih
    · have := crossTree_net.edge _ h2
      simp only at this
      have h3 : crossTree.nAlts = 3 := rfl
      omega

theorem cross_separate : SeparateLogsums crossTree demoTerms := by
  intro n p h1 h2 hs
  have h1 : 3 ≤ n := h1
  have h2 : n < 6 := h2
  have hs' : (if n - 3 < 2 then some 1 else none) = some p := hs
  have hn : n - 3 < 2 := by
    by_contra hh; rw [if_neg hh] at hs'; simp at hs'
  rw [if_pos hn] at hs'
  have hp : p = 1 := by simpa using hs'.symm
  subst hp
  refine ⟨⟨?_, ?_, ?_⟩, ?_⟩
  · intro t ht; simp [demoTerms] at ht; rcases ht with rfl | rfl <;> simp
  · intro t ht; simp [demoTerms] at ht; subst ht; simp
  · simp [demoTerms]
  · intro c hc hb
    have hc : 3 ≤ c := hc
    rcases cross_below hb with hh | hh <;> omega

theorem cross_single : SingleNests crossTree := by
  intro p q c h1 h2 hc
  have hc : 3 ≤ c := hc
  simp [crossTree] at h1 h2
  omega

example (p : Nat) (hp : p = 0 ∨ p = 1 ∨ p = 2 ∨ p = 3) := C75_gradient_partial cross_demo cross_single (fun _ => false) p rfl
    (by rcases hp with rfl | rfl | rfl | rfl <;> simp [demoTerms]) (by simp [crossTree]) cross_separate cross_chosen
example := C75_bhhh_partial cross_demo cross_single (fun _ => false) cross_separate cross_chosen
example := C75_held_zero cross_demo (fun p => p = 1) 1 rfl cross_chosen

/-! ### Where the gradient is wrong -/

/-- Alternatives 0, 1; nest 2 = {0, 1} with logsum parameter 0; nest 3 = {2}; root 4 = {2, 3}: nest 2 has two parents. -/
def twiceTree : Tree where
  nAlts := 2
  nNodes := 5
  edges := [(2, 0), (2, 1), (3, 2), (4, 2), (4, 3)]
  muSlot k := if k = 0 then some 0 else none
  start k := if k = 0 then 0 else if k = 1 then 2 else 3
  len k := if k = 1 then 1 else 2

theorem twiceTree_net : Network twiceTree where
  root := by decide
  edge := by decide
  sorted := by decide
  nodup := by decide
  covered := by
    intro n hn
    have : n + 1 < 5 := hn
    have : n = 0 ∨ n = 1 ∨ n = 2 ∨ n = 3 := by omega
    rcases this with rfl | rfl | rfl | rfl
    · exact ⟨2, by decide⟩
    · exact ⟨2, by decide⟩
    · exact ⟨3, by decide⟩
    · exact ⟨4, by decide⟩
  slots := by
    intro k hk
    have : 2 + k < 5 := hk
    have : k = 0 ∨ k = 1 ∨ k = 2 := by omega
    rcases this with rfl | rfl | rfl <;> decide

theorem twice_case (t : ℝ) (ht : 0 < t) :
    NetworkCase twiceTree noTerms (fun _ => t) (plainCase 0) (fun _ => true) (fun _ _ => 0) :=
  plain_network twiceTree_net _ 0 (by intro n _ _; unfold muN; split <;> [norm_num; exact ht])

theorem no_utility (θ : Nat → ℝ) (co x) (a : Nat) : utility noTerms θ co x a = 0 := by simp [utility, noTerms]

theorem twice_all (n : Nat) (hn : n < 5) : (netOf twiceTree (fun _ => true)).avail n := by
  have a0 : (netOf twiceTree (fun _ => true)).avail 0 := (net_avail_alt (by decide)).mpr rfl
  have a1 : (netOf twiceTree (fun _ => true)).avail 1 := (net_avail_alt (by decide)).mpr rfl
  have a2 := net_avail_parent twiceTree_net (show (2, 0) ∈ twiceTree.edges by decide) a0
  have a3 := net_avail_parent twiceTree_net (show (3, 2) ∈ twiceTree.edges by decide) a2
  have a4 := net_avail_parent twiceTree_net (show (4, 3) ∈ twiceTree.edges by decide) a3
  have : n = 0 ∨ n = 1 ∨ n = 2 ∨ n = 3 ∨ n = 4 := by omega
  rcases this with rfl | rfl | rfl | rfl | rfl <;> assumption

/-- For every value of the logsum parameter both alternatives have probability one half. -/
theorem twice_prob (t : ℝ) (ht : 0 < t) :
    netProb twiceTree noTerms (fun _ => t) (plainCase 0) (fun _ => true) (fun _ _ => 0) 0 = 1 / 2 := by
  have h := (C74_probability (twice_case t ht) (fun _ => false) ⟨0, by decide, rfl⟩).2.1
  have e : netProb twiceTree noTerms (fun _ => t) (plainCase 0) (fun _ => true) (fun _ _ => 0) 0 =
      netProb twiceTree noTerms (fun _ => t) (plainCase 0) (fun _ => true) (fun _ _ => 0) 1 := by
    unfold netProb
    rw [net_prob twiceTree_net (by decide), net_prob twiceTree_net (by decide), if_pos (twice_all 0 (by norm_num)),
      if_pos (twice_all 1 (by norm_num))]
    apply Finset.sum_congr rfl
    intro q hq
    have hq : q < 5 := Finset.mem_range.mp hq
    have hs : (netOf twiceTree (fun _ => true)).share q 0 = (netOf twiceTree (fun _ => true)).share q 1 := by
      show (1 : ℝ) / nParents twiceTree 0 = 1 / nParents twiceTree 1
      have : nParents twiceTree 0 = nParents twiceTree 1 := by unfold nParents; decide
      rw [this]
    have hi : ((q, 0) ∈ twiceTree.edges) ↔ ((q, 1) ∈ twiceTree.edges) := by
      simp [twiceTree]
    have hc : (netOf twiceTree (fun _ => true)).cond (muN twiceTree fun _ => t)
        (utility noTerms (fun _ => t) (coReal (plainCase 0)) fun _ _ => 0) q 0 =
        (netOf twiceTree (fun _ => true)).cond (muN twiceTree fun _ => t)
        (utility noTerms (fun _ => t) (coReal (plainCase 0)) fun _ _ => 0) q 1 := by
      unfold Net.cond
      rw [hs, net_value_alt (by decide), net_value_alt (by decide), no_utility, no_utility]
    rw [hc]
    simp only [hi]
  simp only [show twiceTree.nAlts = 2 from rfl, Finset.sum_range_succ, Finset.range_zero, Finset.sum_empty] at h
  linarith

theorem twice_alpha : alpha twiceTree (2, 0) = 1 ∧ alpha twiceTree (2, 1) = 1 ∧ alpha twiceTree (3, 2) = 1 / 2 ∧
    alpha twiceTree (4, 2) = 1 / 2 ∧ alpha twiceTree (4, 3) = 1 := by
  refine ⟨?_, ?_, ?_, ?_, ?_⟩ <;> norm_num [alpha, twiceTree]

theorem twice_logalpha : logalpha twiceTree (2, 0) = 0 ∧ logalpha twiceTree (2, 1) = 0 ∧ logalpha twiceTree (3, 2) = -Real.log 2 ∧
    logalpha twiceTree (4, 2) = -Real.log 2 ∧ logalpha twiceTree (4, 3) = 0 := by
  obtain ⟨a1, a2, a3, a4, a5⟩ := twice_alpha
  unfold logalpha
  rw [a1, a2, a3, a4, a5]
  simp

/-- the case at parameter value 1 -/
theorem twice_one : NetworkCase twiceTree noTerms (fun _ => 1) (plainCase 0) (fun _ => true) (fun _ _ => 0) := twice_case 1 one_pos

theorem twice_share (p : Nat) : (netOf twiceTree (fun _ => true)).share p 0 = 1 ∧ (netOf twiceTree (fun _ => true)).share p 1 = 1 ∧
    (netOf twiceTree (fun _ => true)).share p 2 = 1 / 2 ∧ (netOf twiceTree (fun _ => true)).share p 3 = 1 := by
  have h0 : nParents twiceTree 0 = 1 := by unfold nParents; decide
  have h1 : nParents twiceTree 1 = 1 := by unfold nParents; decide
  have h2 : nParents twiceTree 2 = 2 := by unfold nParents; decide
  have h3 : nParents twiceTree 3 = 1 := by unfold nParents; decide
  refine ⟨?_, ?_, ?_, ?_⟩
  · show (1 : ℝ) / nParents twiceTree 0 = 1
    rw [h0]; norm_num
  · show (1 : ℝ) / nParents twiceTree 1 = 1
    rw [h1]; norm_num
  · show (1 : ℝ) / nParents twiceTree 2 = 1 / 2
    rw [h2]; norm_num
  · show (1 : ℝ) / nParents twiceTree 3 = 1
    rw [h3]; norm_num

theorem twice_value :
    shVal twiceTree noTerms (fun _ => 1) (plainCase 0) (fun _ => true) (fun _ _ => 0) 0 = 0 ∧
    shVal twiceTree noTerms (fun _ => 1) (plainCase 0) (fun _ => true) (fun _ _ => 0) 1 = 0 ∧
    shVal twiceTree noTerms (fun _ => 1) (plainCase 0) (fun _ => true) (fun _ _ => 0) 2 = Real.log 2 ∧
    shVal twiceTree noTerms (fun _ => 1) (plainCase 0) (fun _ => true) (fun _ _ => 0) 3 = 0 ∧
    shVal twiceTree noTerms (fun _ => 1) (plainCase 0) (fun _ => true) (fun _ _ => 0) 4 = Real.log 2 := by
  have hsh : shifted twiceTree noTerms (fun _ => 1) (plainCase 0) (fun _ => true) (fun _ _ => 0) = fun _ => 0 := by
    funext a
    unfold shifted
    rw [no_utility, shift_zero (fun a _ _ => by rw [no_utility]; norm_num), sub_zero]
  have hmu : muN twiceTree (fun _ => (1 : ℝ)) = fun _ => 1 := by funext n; unfold muN; split <;> rfl
  unfold shVal
  rw [hsh, hmu]
  have v0 : (netOf twiceTree (fun _ => true)).value (fun _ => 1) (fun _ => 0) 0 = 0 := net_value_alt (by decide)
  have v1 : (netOf twiceTree (fun _ => true)).value (fun _ => 1) (fun _ => 0) 1 = 0 := net_value_alt (by decide)
  have hr : (Finset.range twiceTree.nNodes) = {0, 1, 2, 3, 4} := by decide
  have hm : ∀ p c, (p, c) ∈ twiceTree.edges ↔ (p = 2 ∧ c = 0) ∨ (p = 2 ∧ c = 1) ∨ (p = 3 ∧ c = 2) ∨ (p = 4 ∧ c = 2) ∨ (p = 4 ∧ c = 3) := by
    intro p c; simp [twiceTree]
  have b0 := twice_all 0 (by norm_num)
  have b1 := twice_all 1 (by norm_num)
  have b2 := twice_all 2 (by norm_num)
  have b3 := twice_all 3 (by norm_num)
  have hl : Real.log (1 / 2) = -Real.log 2 := by rw [one_div, Real.log_inv]
  have v2 : (netOf twiceTree (fun _ => true)).value (fun _ => 1) (fun _ => 0) 2 = Real.log 2 := by
    rw [net_value_nest (by decide), net_denom twiceTree_net, hr]
    simp [hm, b0, b1, term, v0, v1, (twice_share 2).1, (twice_share 2).2.1]
    norm_num
  have v3 : (netOf twiceTree (fun _ => true)).value (fun _ => 1) (fun _ => 0) 3 = 0 := by
    rw [net_value_nest (by decide), net_denom twiceTree_net, hr]
    simp [hm, b2, term, v2, (twice_share 3).2.2.1]
  refine ⟨v0, v1, v2, v3, ?_⟩
  rw [net_value_nest (by decide), net_denom twiceTree_net, hr]
  simp [hm, b2, b3, term, v2, v3, (twice_share 4).2.2.1, (twice_share 4).2.2.2]
  norm_num

/-- **C75 violated (a nest with two parents).** The log likelihood does not depend on the logsum parameter (both alternatives
have probability 1/2 at every value) but the gradient returned is `-½ log 2`: the nest's own term is applied once for every
parent. -/
theorem C75_fails_two_parents :
    (∀ t : ℝ, 0 < t → (nlCase twiceTree noTerms (fun _ => false) (fun _ => t) (plainCase 0)).ll = .fin (-Real.log 2)) ∧
    (nlCase twiceTree noTerms (fun _ => false) (fun _ => 1) (plainCase 0)).dll 0 = .fin (-(1 / 2 * Real.log 2)) := by
  have hch : ∀ a < twiceTree.nAlts, (plainCase 0).ch a ≠ 0 → (fun _ : Nat => true) a = true := fun _ _ _ => rfl
  constructor
  · intro t ht
    rw [C74_loglike (twice_case t ht) _ hch]
    unfold netLoglike Net.loglike
    have := twice_prob t ht
    unfold netProb at this
    have hn : (netOf twiceTree (fun _ => true)).nAlts = 2 := rfl
    simp only [hn, Finset.sum_range_succ, Finset.range_zero, Finset.sum_empty, this]
    simp [plainCase]
  · obtain ⟨v0, v1, v2, v3, v4⟩ := twice_value
    have hU : ∀ n, n < 5 → (nlCase twiceTree noTerms (fun _ => false) (fun _ => 1) (plainCase 0)).utility n =
        .fin (shVal twiceTree noTerms (fun _ => 1) (plainCase 0) (fun _ => true) (fun _ _ => 0) n) := by
      intro n hn
      rw [run_U twice_one _ hn]
      unfold emb
      rw [if_pos (twice_all n hn)]
    set U := (nlCase twiceTree noTerms (fun _ => false) (fun _ => 1) (plainCase 0)).utility with hUd
    have u0 : U 0 = .fin 0 := by rw [hU 0 (by norm_num), v0]
    have u1 : U 1 = .fin 0 := by rw [hU 1 (by norm_num), v1]
    have u2 : U 2 = .fin (Real.log 2) := by rw [hU 2 (by norm_num), v2]
    have u3 : U 3 = .fin 0 := by rw [hU 3 (by norm_num), v3]
    have u4 : U 4 = .fin (Real.log 2) := by rw [hU 4 (by norm_num), v4]
    obtain ⟨a1, a2, a3, a4, a5⟩ := twice_alpha
    obtain ⟨l1, l2, l3, l4, l5⟩ := twice_logalpha
    have hmu : ∀ n, muN twiceTree (fun _ => (1 : ℝ)) n = 1 := by intro n; unfold muN; split <;> rfl
    have hmo : ∀ n, Compiled.muOf twiceTree (fun _ => (1 : ℝ)) n = 1 := by
      intro n; unfold Compiled.muOf; split
      · rfl
      · split <;> rfl
    set cl := condLog twiceTree (fun _ => 1) U with hcl
    have hc : ∀ e ∈ twiceTree.edges, cl e = .fin (logalpha twiceTree e + shVal twiceTree noTerms (fun _ => 1) (plainCase 0)
        (fun _ => true) (fun _ _ => 0) e.2 - shVal twiceTree noTerms (fun _ => 1) (plainCase 0) (fun _ => true) (fun _ _ => 0) e.1) := by
      intro e he
      rw [hcl, hUd, run_cl twice_one _ he]
      unfold emb
      rw [if_pos (twice_all _ (lt_trans (edge_lt twiceTree_net he).1 (edge_lt twiceTree_net he).2.2)), hmu, div_one]
    have c1 : cl (2, 0) = .fin (-Real.log 2) := by rw [hc _ (by decide), l1, v0, v2]; congr 1; ring
    have c2 : cl (2, 1) = .fin (-Real.log 2) := by rw [hc _ (by decide), l2, v1, v2]; congr 1; ring
    have c3 : cl (3, 2) = .fin 0 := by rw [hc _ (by decide), l3, v2, v3]; congr 1; ring
    have c4 : cl (4, 2) = .fin (-Real.log 2) := by rw [hc _ (by decide), l4, v2, v4]; congr 1; ring
    have c5 : cl (4, 3) = .fin (-Real.log 2) := by rw [hc _ (by decide), l5, v3, v4]; congr 1; ring
    have hexp : Real.exp (-Real.log 2) = 1 / 2 := by rw [Real.exp_neg, Real.exp_log two_pos]; norm_num
    have hE : twiceTree.edges = [(2, 0), (2, 1), (3, 2), (4, 2), (4, 3)] := rfl
    have s2 : slotOf twiceTree (fun _ => false) 2 = some 0 := rfl
    have s3 : slotOf twiceTree (fun _ => false) 3 = none := rfl
    have s4 : slotOf twiceTree (fun _ => false) 4 = none := rfl
    have hn2 : twiceTree.nAlts = 2 := rfl
    have h0 : ∀ n p, (Compiled.assemble (fun _ => 1) (fun _ => false) 2 noTerms (plainCase 0)).dU n p = .fin 0 := by
      intro n p
      simp [Compiled.assemble, Compiled.rawUtility, Compiled.altStep, Compiled.quantity, noTerms, plainCase, Compiled.rowOf, List.range_succ]
      rfl
    set D := dUPass twiceTree (fun _ => 1) (fun _ => false) U cl
      (Compiled.assemble (fun _ => 1) (fun _ => false) twiceTree.nAlts noTerms (plainCase 0)).dU with hD
    have hrow : D 0 0 = .fin 0 ∧ D 1 0 = .fin 0 ∧ D 2 0 = .fin (2 * Real.log 2) ∧ D 3 0 = .fin (Real.log 2) ∧
        D 4 0 = .fin (3 / 2 * Real.log 2) := by
      rw [hD]
      unfold dUPass
      rw [hE]
      simp only [List.foldl_cons, List.foldl_nil, dUStep, c1, c2, c3, c4, c5, X.fin_gt_ninf, if_true, X.exp_fin, hexp, dUOwn, dUMu, s2, s3, s4,
        hn2, a1, a2, a3, a4, a5, u0, u1, u2, u3, u4, hmo, h0, Real.exp_zero]
      refine ⟨?_, ?_, ?_, ?_, ?_⟩ <;>
        simp [set2, addAt2, X.fin_div, X.zero_def] <;> ring
    obtain ⟨d0, d1, d2, d3, d4⟩ := hrow
    set P := Compiled.probPass twiceTree cl with hP
    have hp : P 0 = .fin (1 / 2) ∧ P 1 = .fin (1 / 2) ∧ P 2 = .fin 1 ∧ P 3 = .fin (1 / 2) ∧ P 4 = .fin 1 := by
      rw [hP]
      unfold Compiled.probPass
      rw [hE]
      simp [c1, c2, c3, c4, c5, hexp, addAt, X.zero_def, X.one_def, show twiceTree.nNodes = 5 from rfl, X.fin_inj]
      norm_num
    obtain ⟨p0, p1, p2, p3, p4⟩ := hp
    set Q := dPPass twiceTree (fun _ => 1) (fun _ => false) U P cl D with hQ
    have hq : Q 0 0 = .fin (-(1 / 4 * Real.log 2)) := by
      rw [hQ]
      unfold dPPass
      rw [hE]
      simp [c1, c2, c3, c4, c5, hexp, scratch, hmo, s2, s3, s4, a1, a2, a3, a4, a5, u0, u1, u2, u3, u4, p0, p1, p2, p3, p4, d0, d1, d2, d3, d4, X.fin_div,
        X.zero_def, X.fin_inj]
      ring
    show (if (plainCase 0).wt = 0 then (⟨fun _ => 0, fun _ _ => 0⟩ : Grad) else nlGrad twiceTree.nAlts (plainCase 0).ch (plainCase 0).wt P Q).dll 0 = _
    rw [if_neg (by simp [plainCase]), hn2]
    unfold nlGrad
    simp [List.range_succ, plainCase, p0, hq, X.fin_div, X.zero_def, X.fin_inj]
    ring

/-- **C75 (derivative of the probabilities).** For an offered alternative the returned derivative of its probability is the
derivative of the returned probability. -/
theorem C75_dprobability_partial (h : NetworkCase T M θ C A x) (h1 : SingleNests T) (hold : Nat → Bool) (p : Nat)
    (hp : hold p = false) (hq : (M.q.filter (fun t => t.param = p)).length ≤ 1)
    (hroot : T.muSlot (T.nNodes - 1 - T.nAlts) ≠ some p) (hsep : SeparateLogsums T M) {a : Nat} (ha : a < T.nAlts)
    (hA : A a = true) :
    ∃ (f : ℝ → ℝ) (g : ℝ), (∀ᶠ t in nhds (θ p), (nlCase T M hold (update θ p t) C).probability a = .fin (f t)) ∧
      (nlCase T M hold θ C).dprobability a p = .fin g ∧ HasDerivAt f g (θ p) := by
  obtain ⟨Q, hQ, hQr, hQs⟩ := run_dP h hold
  have hlt := lt_trans ha h.net.root
  have hav : (netOf T A).avail a := (net_avail_alt ha).mpr hA
  refine ⟨fun t => netProb T M (update θ p t) C A x a, Q a p, ?_, hQ a hlt hav p,
    run_dP_hasDeriv h h1 hold p hp hq hroot hsep Q hQr hQs a hlt hav⟩
  filter_upwards [networkCase_eventually h p] with t ht
  exact run_P ht hold hlt

example := C75_dprobability_partial cross_demo cross_single (fun _ => false) 1 rfl (by simp [demoTerms]) (by simp [crossTree])
  cross_separate (a := 0) (by decide) rfl

/-- Alternatives 0, 1, 2; nest 3 = {0, 1} with logsum parameter 0; root 4 = {2, 3}. -/
def nestTree : Tree where
  nAlts := 3
  nNodes := 5
  edges := [(3, 0), (3, 1), (4, 2), (4, 3)]
  muSlot k := if k = 0 then some 0 else none
  start k := 2 * k
  len _ := 2

theorem nestTree_net : Network nestTree where
  root := by decide
  edge := by decide
  sorted := by decide
  nodup := by decide
  covered := by
    intro n hn
    have : n + 1 < 5 := hn
    have : n = 0 ∨ n = 1 ∨ n = 2 ∨ n = 3 := by omega
    rcases this with rfl | rfl | rfl | rfl
    · exact ⟨3, by decide⟩
    · exact ⟨3, by decide⟩
    · exact ⟨4, by decide⟩
    · exact ⟨4, by decide⟩
  slots := by
    intro k hk
    have : 3 + k < 5 := hk
    have : k = 0 ∨ k = 1 := by omega
    rcases this with rfl | rfl <;> decide

/-- Alternative 0 is not available. -/
noncomputable def missingCase : Case := { plainCase 1 with av := fun a => a ≠ 0 }

theorem missing_case (t : ℝ) (ht : 0 < t) :
    NetworkCase nestTree noTerms (fun _ => t) missingCase (fun a => a ≠ 0) (fun _ _ => 0) where
  net := nestTree_net
  mu := by intro n _ _; unfold muN; split <;> [norm_num; exact ht]
  offers := ⟨fun _ a _ => ⟨rfl, fun _ t ht => by simp [noTerms] at ht⟩, fun rows hr => by simp [missingCase, plainCase] at hr,
    fun t ht => by simp [noTerms] at ht⟩
  sizes := fun hq => absurd rfl hq

/-- **C75 violated (derivative of an unavailable alternative's probability).** The probability of alternative 0 is 0 at every
value of the logsum parameter, but the derivative returned is not a number. -/
theorem C75_fails_unavailable :
    (∀ t : ℝ, 0 < t → (nlCase nestTree noTerms (fun _ => false) (fun _ => t) missingCase).probability 0 = .fin 0) ∧
    (nlCase nestTree noTerms (fun _ => false) (fun _ => 1) missingCase).dprobability 0 0 = .nan := by
  constructor
  · intro t ht
    have h := C74_probability (missing_case t ht) (fun _ => false) ⟨1, by decide, rfl⟩
    rw [h.1 0 (by decide), (h.2.2 0 (by decide)).2 (by simp)]
  · have h := missing_case 1 one_pos
    have b1 : (netOf nestTree (fun a => a ≠ 0)).avail 1 := (net_avail_alt (by decide)).mpr rfl
    have b3 := net_avail_parent nestTree_net (show (3, 1) ∈ nestTree.edges by decide) b1
    have b0 : ¬ (netOf nestTree (fun a => a ≠ 0)).avail 0 := by rw [net_avail_alt (by decide)]; simp
    set hold : Nat → Bool := fun _ => false with hh
    set U := (nlCase nestTree noTerms hold (fun _ => 1) missingCase).utility with hU
    set cl := condLog nestTree (fun _ => 1) U with hcl
    set P := (nlCase nestTree noTerms hold (fun _ => 1) missingCase).probability with hP
    have u0 : U 0 = .ninf := by rw [hU, run_U h _ (by decide)]; unfold emb; rw [if_neg b0]
    obtain ⟨w3, u3⟩ : ∃ w, U 3 = .fin w := by rw [hU, run_U h _ (by decide)]; unfold emb; rw [if_pos b3]; exact ⟨_, rfl⟩
    have c0 : cl (3, 0) = .ninf := by rw [hcl, hU, run_cl h _ (by decide)]; unfold emb; rw [if_neg b0]
    have hp3 := run_P h hold (n := 3) (by decide)
    have hpos : 0 < netProb nestTree noTerms (fun _ => 1) missingCase (fun a => a ≠ 0) (fun _ _ => 0) 3 :=
      net_prob_pos nestTree_net 3 (by decide) b3
    set y := netProb nestTree noTerms (fun _ => 1) missingCase (fun a => a ≠ 0) (fun _ _ => 0) 3 with hy
    obtain ⟨r0, hr0⟩ := rowsOf_fin h hold 0 0
    obtain ⟨r3, hr3⟩ := rowsOf_fin h hold 3 0
    obtain ⟨r2, hr2⟩ := rowsOf_fin h hold 2 0
    obtain ⟨r4, hr4⟩ := rowsOf_fin h hold 4 0
    obtain ⟨k3, hk3⟩ : ∃ k, X.exp (cl (4, 3)) = .fin k := by
      rw [hcl, hU, run_cl h _ (by decide)]; unfold emb; rw [if_pos b3]; exact ⟨_, rfl⟩
    have hp4 : P 4 = .fin 1 := by
      rw [hP, run_P h hold (by decide)]
      exact congrArg X.fin (net_prob_root nestTree_net)
    have hmo : ∀ n, Compiled.muOf nestTree (fun _ => (1 : ℝ)) n = 1 := by
      intro n; unfold Compiled.muOf; split
      · rfl
      · split <;> rfl
    have s3 : slotOf nestTree hold 3 = some 0 := rfl
    have s4 : slotOf nestTree hold 4 = none := rfl
    have a0 : alpha nestTree (3, 0) = 1 := by norm_num [alpha, nestTree]
    have hE : nestTree.edges.reverse = [(4, 3), (4, 2), (3, 1), (3, 0)] := rfl
    show dPPass nestTree (fun _ => 1) hold U P cl (rowsOf nestTree noTerms hold (fun _ => 1) missingCase) 0 0 = .nan
    unfold dPPass
    rw [hE]
    have hmul : ∀ a b : ℝ, 0 < b → ((X.fin a + X.pinf / X.fin 1) * (X.fin b / X.fin 1) : X) = X.pinf := by
      intro a b hb
      rw [X.fin_div one_ne_zero, div_one]
      have e1 : (X.pinf / X.fin 1 : X) = X.pinf := by show (if (1 : ℝ) < 0 then _ else _) = _; norm_num
      rw [e1]
      show X.infSign b X.pinf X.ninf = X.pinf
      simp [X.infSign, hb]
    have hz : (X.pinf * X.fin 0 : X) = X.nan := by
      show X.infSign 0 X.pinf X.ninf = X.nan
      simp [X.infSign]
    have hsub : (X.fin w3 - X.ninf : X) = X.pinf := rfl
    simp only [List.foldl_cons, List.foldl_nil, scratch, hmo, s3, s4, a0, u0, u3, c0, hp3, hp4, hr0, hr3, hr4, hk3, hsub]
    simp [X.fin_div, X.zero_def, hmul _ _ hpos, hr3, hr4, hk3, hp3, hp4, hz]
    rw [show rowsOf nestTree noTerms hold (fun _ => 1) missingCase 0 0 = X.fin r0 from hr0, X.fin_sub, show P 3 = X.fin y from hp3, hmul _ _ hpos,
      show (X.pinf + X.fin ((r3 - r4) * k3) : X) = X.pinf from rfl, hz]
    rfl

/-! ## C76 -/

/-- **C76 (probabilities and log likelihood).** On a nesting tree with dense data both engines return the same probabilities of
alternatives and nests, and the same log likelihood. -/
theorem C76_probability (h : DenseCase T M θ C) (hold : Nat → Bool) (W : Work) :
    ∀ n < T.nNodes, (nlCase T M hold θ C).probability n = (runCase T M hold θ C W).probability n := by
  intro n hn
  rw [run_prob h hold W n hn, run_P (networkCase_of_dense h) hold hn, netProb_bridge h hn]

theorem C76_loglike (h : DenseCase T M θ C) (hold : Nat → Bool) (W : Work) (hch : ∀ a < T.nAlts, C.ch a ≠ 0 → C.av a = true) :
    (nlCase T M hold θ C).ll = (runCase T M hold θ C W).loglike := by
  rw [run_loglike h hold W hch, run_ll (networkCase_of_dense h) hold hch, netLoglike_bridge h]

/-- **C76 (gradient and BHHH).** Both engines return the same gradient and BHHH entries of free parameters - also where they are
not the derivative.  Not covered: a logsum parameter on the root together with utilities above 500, and chosen alternatives
with probability below 1e-250. -/
theorem C76_gradient_partial (h : DenseCase T M θ C) (hold : Nat → Bool) (W : Work)
    (hch : ∀ a < T.nAlts, C.ch a ≠ 0 → C.av a = true) (hch0 : ∀ a < T.nAlts, 0 ≤ C.ch a)
    (hpos : ∀ a < T.nAlts, C.ch a ≠ 0 → 1 / 10 ^ 250 ≤ caseProb T M θ C a) :
    ∀ p, hold p = false → (T.muSlot (T.nNodes - 1 - T.nAlts) ≠ some p ∨
        ∀ a < T.nAlts, C.av a = true → utility M θ (coReal C) (caReal C) a ≤ 500) →
      (nlCase T M hold θ C).dll p = (runCase T M hold θ C W).dLoglike p ∧
      ∀ q, hold q = false → (T.muSlot (T.nNodes - 1 - T.nAlts) ≠ some q ∨
        ∀ a < T.nAlts, C.av a = true → utility M θ (coReal C) (caReal C) a ≤ 500) →
        (nlCase T M hold θ C).bhhh p q = (runCase T M hold θ C W).bhhh p q := by
  have hC := networkCase_of_dense h
  obtain ⟨Q, hQ, hQr, hQs⟩ := run_dP hC hold
  obtain ⟨g1, g2⟩ := Compiled.run_grad hC hold hch Q hQ
  obtain ⟨n1, n2⟩ := Kernel.run_grad h hold W hch hpos
  have key : ∀ p, hold p = false → (T.muSlot (T.nNodes - 1 - T.nAlts) ≠ some p ∨
        ∀ a < T.nAlts, C.av a = true → utility M θ (coReal C) (caReal C) a ≤ 500) →
      ∀ a < T.nAlts, C.ch a ≠ 0 → Q a p / netProb T M θ C C.av (caReal C) a = dPOf T M hold θ C a p / caseProb T M θ C a := by
    intro p hp hs a ha hc
    have hlt := lt_trans ha h.wf.root
    rw [netProb_bridge h hlt, dP_bridge h hold p hp (hs.imp id shift_zero) hch0 Q hQr hQs a hlt
      ((net_avail_alt ha).mpr (hch a ha hc)) (by rw [cascadeSum_alt h.wf _ ha]; exact hc)]
  intro p hp hs
  constructor
  · rw [g1, n1]
    congr 2
    apply Finset.sum_congr rfl
    intro a ha
    by_cases hc : C.ch a = 0
    · rw [hc, zero_mul, zero_mul]
    · rw [key p hp hs a (Finset.mem_range.mp ha) hc]
  · intro q hq hs'
    rw [g2, n2]
    congr 2
    apply Finset.sum_congr rfl
    intro a ha
    by_cases hc : C.ch a = 0
    · rw [hc, zero_mul, zero_mul]
    · rw [key p hp hs a (Finset.mem_range.mp ha) hc, key q hq hs' a (Finset.mem_range.mp ha) hc]

example (W : Work) := C76_probability demo_dense (fun _ => false) W
example (W : Work) := C76_loglike demo_dense (fun _ => false) W demo_chosen
example (W : Work) (p : Nat) := C76_gradient_partial demo_dense (fun _ => false) W demo_chosen demo_nonneg demo_prob_large p rfl
  (Or.inl (by simp [demoTree]))

/-- Both engines return the same wrong gradient for a logsum parameter on the root: the log likelihood does not depend on it. -/
theorem C75_fails_root_logsum :
    (∀ᶠ t in nhds (1 : ℝ), (nlCase rootMuTree noTerms (fun _ => false) (update (fun _ => 1) 0 t) (plainCase 0)).ll = .fin (-Real.log 2)) ∧
    (nlCase rootMuTree noTerms (fun _ => false) (fun _ => 1) (plainCase 0)).dll 0 = .fin (Real.log 2) := by
  obtain ⟨h1, h2⟩ := C05_fails_root_logsum ⟨fun _ => 0, fun _ => 0⟩
  have hD : DenseCase rootMuTree noTerms (fun _ => 1) (plainCase 0) :=
    plain_dense rootMuTree_wf _ 0 (fun n _ _ => by simp [muN, rootMuTree])
  have hch : ∀ a < rootMuTree.nAlts, (plainCase 0).ch a ≠ 0 → (plainCase 0).av a = true := fun _ _ _ => rfl
  constructor
  · filter_upwards [h1, denseCase_eventually hD 0] with t ht hDt
    rw [C76_loglike hDt _ ⟨fun _ => 0, fun _ => 0⟩ hch]
    exact ht
  · have hu : ∀ θ a, utility noTerms θ (coReal (plainCase 0)) (caReal (plainCase 0)) a = 0 := fun θ a => no_utility θ _ _ a
    have hlp : Real.log (caseProb rootMuTree noTerms (fun _ => 1) (plainCase 0) 0) = -Real.log 2 := by
      obtain ⟨e1, e2⟩ := flat_logprob hD rfl rfl rfl rfl
      rw [e2, e1, hu, hu]
      have : muN rootMuTree (fun _ => (1 : ℝ)) 2 = 1 := rfl
      rw [this]; norm_num
    have hP : caseProb rootMuTree noTerms (fun _ => 1) (plainCase 0) 0 = 1 / 2 := by
      have hpos : 0 < caseProb rootMuTree noTerms (fun _ => 1) (plainCase 0) 0 :=
        prob_pos rootMuTree_wf _ _ _ 0 (by decide) ((avail_alt _ (by decide)).mpr rfl)
      have := congrArg Real.exp hlp
      rw [Real.exp_log hpos, Real.exp_neg, Real.exp_log (by norm_num)] at this
      rw [this]; norm_num
    rw [(C76_gradient_partial hD (fun _ => false) ⟨fun _ => 0, fun _ => 0⟩ hch
      (fun a _ => by simp only [plainCase]; split_ifs <;> norm_num) (fun a _ hc => ?_) 0 rfl
      (Or.inr (fun a _ _ => by rw [hu]; norm_num))).1]
    · exact h2
    · have h0 : a = 0 := by
        by_contra h
        exact hc (by simp [plainCase, h])
      subst h0
      rw [hP]; norm_num

/-- Alternative 0 alone, in nests 1 = {0} and 2 = {0}; root 3 = {1, 2}. -/
def onlyTree : Tree where
  nAlts := 1
  nNodes := 4
  edges := [(1, 0), (2, 0), (3, 1), (3, 2)]
  muSlot _ := none
  start k := if k = 0 then 0 else if k = 1 then 1 else 2
  len k := if k = 2 then 2 else 1

theorem onlyTree_net : Network onlyTree where
  root := by decide
  edge := by decide
  sorted := by decide
  nodup := by decide
  covered := by
    intro n hn
    have : n + 1 < 4 := hn
    have : n = 0 ∨ n = 1 ∨ n = 2 := by omega
    rcases this with rfl | rfl | rfl
    · exact ⟨1, by decide⟩
    · exact ⟨3, by decide⟩
    · exact ⟨3, by decide⟩
  slots := by
    intro k hk
    have : 1 + k < 4 := hk
    have : k = 0 ∨ k = 1 ∨ k = 2 := by omega
    rcases this with rfl | rfl | rfl <;> decide

/-- **C76 violated (an alternative in two nests).** The only alternative is in two nests: the compiled engine returns
probability 1, the numba engine 1/2. -/
theorem C76_fails_two_nests (W : Work) :
    (nlCase onlyTree noTerms (fun _ => false) (fun _ => 1) (plainCase 0)).probability 0 = .fin 1 ∧
    (runCase onlyTree noTerms (fun _ => false) (fun _ => 1) (plainCase 0) W).probability 0 = .fin (1 / 2) := by
  constructor
  · have h := C74_probability (plain_network onlyTree_net (fun _ => 1) 0 (by intro n _ _; unfold muN; split <;> norm_num))
      (fun _ => false) ⟨0, by decide, rfl⟩
    have h2 := h.2.1
    simp only [show onlyTree.nAlts = 1 from rfl, Finset.sum_range_one] at h2
    rw [h.1 0 (by decide), h2]
  · have hav : ∀ n, n < 4 → cascadeOr onlyTree (plainCase 0).av n = true := by
      intro n hn
      have : n = 0 ∨ n = 1 ∨ n = 2 ∨ n = 3 := by omega
      rcases this with rfl | rfl | rfl | rfl <;> rfl
    set av := cascadeOr onlyTree (plainCase 0).av
    set U0 := (Kernel.assemble (fun _ => 1) (fun _ => false) onlyTree.nAlts noTerms { plainCase 0 with av := av }).U with hU0
    have h0 : ∀ n, U0 n = .fin 0 := by
      intro n
      simp [hU0, Kernel.assemble, Kernel.utilityCo, Kernel.utilityCa, Kernel.quantityCa, noTerms, plainCase, denseLoop, qBody,
        show onlyTree.nAlts = 1 from rfl, hav]
      rfl
    have hmu : ∀ k, Kernel.muOf onlyTree (fun _ => (1 : ℝ)) k = 1 := fun _ => rfl
    have k0 : childSlots onlyTree 0 = [0] := by decide
    have k1 : childSlots onlyTree 1 = [0] := by decide
    have k2 : childSlots onlyTree 2 = [1, 2] := by decide
    set U := Kernel.upPass onlyTree (fun _ => 1) U0 with hU
    have hUs : U 0 = .fin 0 ∧ U 1 = .fin 0 ∧ U 2 = .fin 0 ∧ U 3 = .fin (Real.log 2) := by
      rw [hU]
      unfold Kernel.upPass
      rw [show List.range' onlyTree.nAlts (onlyTree.nNodes - onlyTree.nAlts) = [1, 2, 3] by decide]
      simp [Kernel.nestStep, hmu, k0, k1, k2, Kernel.shiftStep, Kernel.expStep, h0, X.fin_div, addAt, X.one_def, X.log_fin, show onlyTree.nAlts = 1 from rfl]
      norm_num
    obtain ⟨u0, u1, u2, u3⟩ := hUs
    have hE : onlyTree.edges = [(1, 0), (2, 0), (3, 1), (3, 2)] := rfl
    set lp := (logprobPass onlyTree (fun _ => 1) U (cascadeSum onlyTree (plainCase 0).ch) (plainCase 0).wt W.logprob).1 with hlp
    have hl : lp 0 = .fin 0 ∧ lp 1 = .fin (-Real.log 2) ∧ lp 2 = .fin (-Real.log 2) := by
      rw [hlp]
      unfold logprobPass
      rw [hE]
      simp [logprobStep, edgeLogprob, u0, u1, u2, u3, hmu, X.fin_div]
    obtain ⟨l0, l1, l2⟩ := hl
    have hexp : Real.exp (-Real.log 2) = 1 / 2 := by rw [Real.exp_neg, Real.exp_log two_pos]; norm_num
    show Kernel.probPass onlyTree av (condOf onlyTree.nNodes av lp) W.probability 0 = _
    unfold Kernel.probPass
    rw [hE]
    simp [hav, condOf, l0, l1, l2, hexp, show onlyTree.nNodes = 4 from rfl, X.one_def]

end Larch.Props
