import Verif.Lemmas.CompiledNlRun

/-! The network specification on a tree is the nested logit specification; the compiled rows are the numba rows. -/

namespace Larch.Compiled

open Function Larch Larch.Kernel Larch.Spec
open scoped BigOperators
open Classical

section

variable {T : Tree} {A : Nat → Bool} {θ : Nat → ℝ}

theorem network_of_wf (h : T.WF) : Network T where
  root := h.root
  edge := h.edge
  sorted := h.sorted
  nodup := h.oneParent.of_map _
  covered := h.covered
  slots := h.slots

theorem singleNests_of_wf (h : T.WF) : SingleNests T := fun _ _ _ h1 h2 _ => edge_parent_unique h h1 h2

theorem share_one (h : T.WF) {p c : Nat} (he : (p, c) ∈ T.edges) : (netOf T A).share p c = 1 := by
  show (1 : ℝ) / nParents T c = 1
  have : (Finset.range T.nNodes).filter (fun q => (q, c) ∈ T.edges) = {p} := by
    ext q
    simp only [Finset.mem_filter, Finset.mem_range, Finset.mem_singleton]
    constructor
    · rintro ⟨_, hq⟩; exact edge_parent_unique h hq he
    · rintro rfl; exact ⟨(h.edge _ he).2.2, he⟩
  unfold nParents
  rw [this]; simp

theorem avail_bridge (h : T.WF) : ∀ n, (netOf T A).avail n ↔ (shapeOf T A).avail n := by
  intro n
  induction n using Nat.strong_induction_on with
  | _ n ih =>
    by_cases hn : n < T.nAlts
    · rw [net_avail_alt hn, avail_alt _ hn]
    · rw [net_avail_nest (network_of_wf h) (by omega), avail_nest h _ (by omega)]
      constructor
      · rintro ⟨c, hc, ha⟩
        exact ⟨c, mem_kids.mpr hc, (ih c (h.edge _ hc).1).mp ha⟩
      · rintro ⟨c, hc, ha⟩
        have hc' := mem_kids.mp hc
        exact ⟨c, hc', (ih c (h.edge _ hc').1).mpr ha⟩

theorem value_bridge (h : T.WF) (mu u : Nat → ℝ) : ∀ n, (netOf T A).value mu u n = (shapeOf T A).value mu u n := by
  intro n
  induction n using Nat.strong_induction_on with
  | _ n ih =>
    rw [Net.value, Shape.value]
    by_cases hn : n < T.nAlts
    · rw [if_pos (show n < (netOf T A).nAlts from hn), if_pos (show n < (shapeOf T A).nAlts from hn)]
    · rw [if_neg (show ¬ n < (netOf T A).nAlts from hn), if_neg (show ¬ n < (shapeOf T A).nAlts from hn)]
      congr 2
      apply Finset.sum_congr rfl
      intro c _
      by_cases hc : (n, (c : Nat)) ∈ T.edges ∧ (netOf T A).avail c
      · have hc' : (shapeOf T A).child n c ∧ (shapeOf T A).avail c := ⟨hc.1, (avail_bridge h _).mp hc.2⟩
        rw [if_pos (show (netOf T A).child n c ∧ (netOf T A).avail c from hc), if_pos hc', share_one h hc.1, Real.log_one, zero_add,
          ih c c.2]
      · have hc' : ¬ ((shapeOf T A).child n c ∧ (shapeOf T A).avail c) := fun hh => hc ⟨hh.1, (avail_bridge h _).mpr hh.2⟩
        rw [if_neg (show ¬ ((netOf T A).child n c ∧ (netOf T A).avail c) from hc), if_neg hc']

theorem denom_bridge (h : T.WF) (mu u : Nat → ℝ) (n : Nat) : (netOf T A).denom mu u n = (shapeOf T A).denom mu u n := by
  unfold Net.denom Shape.denom
  apply Finset.sum_congr rfl
  intro c _
  by_cases hc : (n, (c : Nat)) ∈ T.edges ∧ (netOf T A).avail c
  · have hc' : (shapeOf T A).child n c ∧ (shapeOf T A).avail c := ⟨hc.1, (avail_bridge h _).mp hc.2⟩
    rw [if_pos (show (netOf T A).child n c ∧ (netOf T A).avail c from hc), if_pos hc', share_one h hc.1, Real.log_one, zero_add,
      value_bridge h]
  · have hc' : ¬ ((shapeOf T A).child n c ∧ (shapeOf T A).avail c) := fun hh => hc ⟨hh.1, (avail_bridge h _).mpr hh.2⟩
    rw [if_neg (show ¬ ((netOf T A).child n c ∧ (netOf T A).avail c) from hc), if_neg hc']

theorem cond_bridge (h : T.WF) (mu u : Nat → ℝ) {p c : Nat} (he : (p, c) ∈ T.edges) :
    (netOf T A).cond mu u p c = Real.exp ((shapeOf T A).value mu u c / mu p) / (shapeOf T A).denom mu u p := by
  unfold Net.cond
  rw [share_one h he, Real.log_one, zero_add, value_bridge h, denom_bridge h]

theorem prob_bridge (h : T.WF) (mu u : Nat → ℝ) : ∀ n < T.nNodes, (netOf T A).prob mu u n = (shapeOf T A).prob mu u n := by
  refine h.top_down (motive := fun n => (netOf T A).prob mu u n = (shapeOf T A).prob mu u n) ?_ ?_
  · rw [net_prob_root (network_of_wf h), prob_root]
  · intro p c he ih
    have hlt := h.edge _ he
    simp only at hlt
    rw [net_prob (network_of_wf h) (by omega), prob_edge h _ _ _ he]
    by_cases ha : (netOf T A).avail c
    · rw [if_pos ha, if_pos ((avail_bridge h c).mp ha)]
      rw [Finset.sum_eq_single p]
      · rw [if_pos he, ih, cond_bridge h _ _ he]
      · intro q _ hq
        rw [if_neg (fun hh => hq (edge_parent_unique h hh he))]
      · intro hh; exact absurd (Finset.mem_range.mpr hlt.2.2) hh
    · rw [if_neg ha, if_neg (fun hh => ha ((avail_bridge h c).mpr hh))]

end

section

variable {T : Tree} {M : Terms} {θ : Nat → ℝ} {C : Case}

theorem networkCase_of_dense (h : DenseCase T M θ C) : NetworkCase T M θ C C.av (caReal C) where
  net := network_of_wf h.wf
  mu := h.mu
  offers := (offers_of_dense h).1
  sizes := (offers_of_dense h).2

theorem netProb_bridge (h : DenseCase T M θ C) {n : Nat} (hn : n < T.nNodes) :
    netProb T M θ C C.av (caReal C) n = caseProb T M θ C n := prob_bridge h.wf _ _ n hn

theorem netLoglike_bridge (h : DenseCase T M θ C) : netLoglike T M θ C C.av (caReal C) = caseLoglike T M θ C := by
  unfold netLoglike caseLoglike Net.loglike Shape.loglike
  congr 1
  apply Finset.sum_congr rfl
  intro a ha
  rw [prob_bridge h.wf _ _ a (lt_trans (Finset.mem_range.mp ha) h.wf.root)]

/-- Agreement of the rows: the compiled rows (shifted utilities) are the numba rows. -/
theorem rows_bridge (h : DenseCase T M θ C) (hold : Nat → Bool) (p : Nat) (hp : hold p = false)
    (hs : T.muSlot (T.nNodes - 1 - T.nAlts) ≠ some p ∨ shiftV T.nAlts C.av (utility M θ (coReal C) (caReal C)) = 0) :
    ∀ n < T.nNodes, (netOf T C.av).avail n → (rowsOf T M hold θ C n p).toReal =
      codeRow T θ (cascadeOr T C.av) (caseValue T M θ C) (kOf T M θ C) (Kernel.d0Of T M hold θ C) n p := by
  have hC := networkCase_of_dense h
  have hN := hC.net
  have hW := h.wf
  have hmu0 : ∀ n, T.nAlts ≤ n → n < T.nNodes → muN T θ n ≠ 0 := fun n a b => ne_of_gt (h.mu n a b)
  set s0 := shiftV T.nAlts C.av (utility M θ (coReal C) (caReal C)) with hs0
  obtain ⟨G, F, hrows, hval⟩ := dUPass_real (A := C.av) (θ := θ) (hold := hold) hN (singleNests_of_wf hW)
    (nlCase T M hold θ C).utility
    (shVal T M θ C C.av (caReal C)) (kEdge T M θ C C.av (caReal C)) (condLog T θ (nlCase T M hold θ C).utility)
    (Compiled.assemble θ hold T.nAlts M C).dU (Compiled.d0Of T M hold θ C) hmu0
    (fun n hn ha => by rw [run_U hC hold hn]; unfold emb; rw [if_pos ha]) (fun e he => run_k hC hold he)
    (fun n p => d0Of_fin hC hold n p)
  have hV : ∀ n, (netOf T C.av).avail n → shVal T M θ C C.av (caReal C) n = caseValue T M θ C n - s0 := by
    intro n ha
    have := net_shift_value (mu := muN T θ) (u := utility M θ (coReal C) (caReal C)) hN s0 hmu0 n ha
    unfold shVal caseValue
    rw [← value_bridge hW]
    exact this
  have hk : ∀ n c, (n, c) ∈ T.edges → (netOf T C.av).avail c → kEdge T M θ C C.av (caReal C) (n, c) = kOf T M θ C c := by
    intro n c he ha
    have hlt := edge_lt hN he
    have hpa := net_avail_parent hN he ha
    rw [kOf_edge hW he]
    unfold kEdge
    simp only
    rw [← net_cond_log hN hlt.2.1 hpa (hmu0 n hlt.2.1 hlt.2.2), share_one hW he, Real.log_one, zero_add]
    congr 2
    have e1 := hV c ha
    have e2 := hV n hpa
    unfold shVal at e1 e2
    rw [e1, e2]; ring
  have hcas : ∀ n, cascadeOr T C.av n = true ↔ (netOf T C.av).avail n := fun n =>
    (cascadeOr_avail hW C.av n).trans (avail_bridge hW n).symm
  have hcs : ∀ n c, (n, c) ∈ T.edges → codeShare T θ (n, c) = 0 := by
    intro n c he
    rw [codeShare_eq (A := C.av) hN (singleNests_of_wf hW) he]
    unfold lshare
    rw [share_one hW he, Real.log_one]
  -- accumulated rows agree up to the shift in the nest's own entry
  have hacc : ∀ n, T.nAlts ≤ n → (netOf T C.av).avail n →
      (∀ c, (n, c) ∈ T.edges → (netOf T C.av).avail c →
        F c p = codeG T θ (cascadeOr T C.av) (caseValue T M θ C) (kOf T M θ C) (Kernel.d0Of T M hold θ C) c p) →
      G n p = codeAcc T θ (cascadeOr T C.av) (caseValue T M θ C) (kOf T M θ C) (Kernel.d0Of T M hold θ C) n p +
        (if slotIs T n p then s0 else 0) := by
    intro n hn ha ih
    have hlt := net_avail_lt hN hn ha
    rw [hrows.acc n hn hlt]
    unfold codeAcc
    have h0 : Kernel.d0Of T M hold θ C n p = 0 := by unfold Kernel.d0Of; rw [if_neg (by omega)]
    rw [h0, zero_add]
    have hsum : (∑ c : Fin n, if (n, (c : Nat)) ∈ T.edges ∧ cascadeOr T C.av c = true then
        kOf T M θ C c * codeG T θ (cascadeOr T C.av) (caseValue T M θ C) (kOf T M θ C) (Kernel.d0Of T M hold θ C) c p -
          (if slotIs T n p then kOf T M θ C c * caseValue T M θ C c else 0) else 0) =
        ∑ c ∈ Finset.range T.nNodes, if (n, c) ∈ T.edges ∧ cascadeOr T C.av c = true then
        kOf T M θ C c * codeG T θ (cascadeOr T C.av) (caseValue T M θ C) (kOf T M θ C) (Kernel.d0Of T M hold θ C) c p -
          (if slotIs T n p then kOf T M θ C c * caseValue T M θ C c else 0) else 0 :=
      sum_fin_range (fun c => if (n, c) ∈ T.edges ∧ cascadeOr T C.av c = true then
        kOf T M θ C c * codeG T θ (cascadeOr T C.av) (caseValue T M θ C) (kOf T M θ C) (Kernel.d0Of T M hold θ C) c p -
          (if slotIs T n p then kOf T M θ C c * caseValue T M θ C c else 0) else 0) (fun c hc => by
        by_cases h1 : (n, c) ∈ T.edges ∧ cascadeOr T C.av c = true
        · have := edge_lt hN h1.1; omega
        · exact absurd (if_neg h1) hc)
    rw [hsum]
    have hone := net_cond_sum (mu := muN T θ) (u := shifted T M θ C C.av (caReal C)) hN hn ha
    have hshift : (if slotIs T n p then s0 else 0) = ∑ c ∈ Finset.range T.nNodes,
        (if (n, c) ∈ T.edges ∧ (netOf T C.av).avail c then
          (if slotIs T n p then kOf T M θ C c * s0 else 0) else 0) := by
      by_cases hsl : slotIs T n p
      · simp only [hsl, if_true]
        have hs1 : (∑ c ∈ Finset.range T.nNodes, (if (n, c) ∈ T.edges ∧ (netOf T C.av).avail c then
          (netOf T C.av).cond (muN T θ) (shifted T M θ C C.av (caReal C)) n c else 0)) * s0 = s0 := by rw [hone, one_mul]
        refine hs1.symm.trans ?_
        rw [Finset.sum_mul]
        apply Finset.sum_congr rfl
        intro c _
        by_cases he : (n, c) ∈ T.edges ∧ (netOf T C.av).avail c
        · rw [if_pos he, if_pos he, ← hk n c he.1 he.2]; rfl
        · rw [if_neg he, if_neg he, zero_mul]
      · simp only [hsl, if_false]
        symm
        apply Finset.sum_eq_zero
        intro c _; split_ifs <;> rfl
    rw [hshift, ← Finset.sum_add_distrib]
    apply Finset.sum_congr rfl
    intro c _
    by_cases he : (n, c) ∈ T.edges ∧ (netOf T C.av).avail c
    · have he2 : (n, c) ∈ T.edges ∧ cascadeOr T C.av c = true := ⟨he.1, (hcas c).mpr he.2⟩
      rw [if_pos he2]
      conv_rhs => rw [if_pos he]
      conv_lhs => rw [if_pos he]
      rw [hk n c he.1 he.2, ih c he.1 he.2, hcs n c he.1, hV c he.2]
      by_cases hsl : slotIs T n p
      · rw [if_pos ((slotOf_free hp hn).mpr hsl), if_pos hsl, if_pos hsl]; ring
      · rw [if_neg (fun hh => hsl ((slotOf_free hp hn).mp hh)), if_neg hsl, if_neg hsl]; ring
    · rw [if_neg he, if_neg he, if_neg (fun hh => he ⟨hh.1, (hcas c).mp hh.2⟩), add_zero]
  have hF : ∀ n, (netOf T C.av).avail n →
      F n p = codeG T θ (cascadeOr T C.av) (caseValue T M θ C) (kOf T M θ C) (Kernel.d0Of T M hold θ C) n p := by
    intro n
    induction n using Nat.strong_induction_on with
    | _ n ih =>
      intro ha
      by_cases hn : n < T.nAlts
      · have hA := (net_avail_alt hn).mp ha
        rw [hrows.alt n hn, d0Of_alt hC hold hn hA, codeG_eq, if_neg (fun hh => by omega)]
        unfold codeAcc
        have h0 : Kernel.d0Of T M hold θ C n p = codeCoef hold M θ (coReal C) (caReal C) n p := by
          unfold Kernel.d0Of; rw [if_pos ⟨hn, hA⟩]
        rw [h0, Finset.sum_eq_zero, add_zero]
        intro c _
        rw [if_neg]
        rintro ⟨he, _⟩
        have := edge_lt hN he; omega
      · have hn' : T.nAlts ≤ n := by omega
        have hlt := net_avail_lt hN hn' ha
        have hG := hacc n hn' ha (fun c hc hca => ih c (edge_lt hN hc).1 hca)
        rw [hrows.own n hn', codeG_eq]
        by_cases hsl : slotIs T n p
        · have hm : muN T θ n = θ p := by
            unfold muN; unfold slotIs at hsl; rw [hsl]
          rw [if_pos ((slotOf_free hp hn').mpr hsl), if_pos ⟨hn', hsl⟩, hG, if_pos hsl, hV n ha, hm]
          congr 1; ring
        · rw [if_neg (fun hh => hsl ((slotOf_free hp hn').mp hh)), if_neg (fun hh => hsl hh.2), hG, if_neg hsl, add_zero]
  intro n hn ha
  unfold rowsOf codeRow
  rw [hval n hn ha p, X.toReal_fin]
  have hroot := hN.root
  split_ifs with hr
  · rw [hacc n (by omega) ha (fun c hc hca => hF c hca)]
    by_cases hsl : slotIs T n p
    · rcases hs with hs | hs
      · exfalso; apply hs; rw [hr] at hsl; exact hsl
      · rw [if_pos hsl, hs, add_zero]
    · rw [if_neg hsl, add_zero]
  · exact hF n ha

/-- Agreement of the probability gradients of nodes on the way to a chosen alternative. -/
theorem dP_bridge (h : DenseCase T M θ C) (hold : Nat → Bool) (p : Nat) (hp : hold p = false)
    (hs : T.muSlot (T.nNodes - 1 - T.nAlts) ≠ some p ∨ shiftV T.nAlts C.av (utility M θ (coReal C) (caReal C)) = 0)
    (hch0 : ∀ a < T.nAlts, 0 ≤ C.ch a) (Q : Nat → Nat → ℝ) (hQr : ∀ p, Q (T.nNodes - 1) p = 0)
    (hQ : ∀ n, n + 1 < T.nNodes → (netOf T C.av).avail n → ∀ p, Q n p = ∑ q ∈ Finset.range T.nNodes, if (q, n) ∈ T.edges then
        (((rowsOf T M hold θ C n p).toReal - (rowsOf T M hold θ C q p).toReal + (if slotOf T hold q = some p then 1 else 0) *
          ((shVal T M θ C C.av (caReal C) q - shVal T M θ C C.av (caReal C) n) / muN T θ q - logalpha T (q, n) / muN T θ q)) *
          (netProb T M θ C C.av (caReal C) q / muN T θ q) + Q q p) * kEdge T M θ C C.av (caReal C) (q, n) else 0) :
    ∀ n < T.nNodes, (netOf T C.av).avail n → cascadeSum T C.ch n ≠ 0 → Q n p = dPOf T M hold θ C n p := by
  have hC := networkCase_of_dense h
  have hN := hC.net
  have hW := h.wf
  have hmu0 : ∀ n, T.nAlts ≤ n → n < T.nNodes → muN T θ n ≠ 0 := fun n a b => ne_of_gt (h.mu n a b)
  set s0 := shiftV T.nAlts C.av (utility M θ (coReal C) (caReal C)) with hs0
  have hV : ∀ n, (netOf T C.av).avail n → shVal T M θ C C.av (caReal C) n = caseValue T M θ C n - s0 := by
    intro n ha
    have := net_shift_value (mu := muN T θ) (u := utility M θ (coReal C) (caReal C)) hN s0 hmu0 n ha
    unfold shVal caseValue
    rw [← value_bridge hW]
    exact this
  refine hW.top_down (motive := fun n => (netOf T C.av).avail n → cascadeSum T C.ch n ≠ 0 → Q n p = dPOf T M hold θ C n p) ?_ ?_
  · intro _ _
    rw [hQr]; unfold dPOf; rw [codeDP_root]
  · intro q n he ih ha hc
    have hlt := edge_lt hN he
    have hqa := net_avail_parent hN he ha
    rw [hQ n (by omega) ha p]
    unfold dPOf
    rw [codeDP_edge hW θ _ _ _ _ _ he hc]
    rw [Finset.sum_eq_single q]
    · rw [if_pos he, rows_bridge h hold p hp hs n (by omega) ha, rows_bridge h hold p hp hs q hlt.2.2 hqa,
        ih hqa (cascadeSum_up hW C.ch hch0 he hc), netProb_bridge h hlt.2.2, hV q hqa, hV n ha]
      have hl : logalpha T (q, n) = 0 := by
        rw [logalpha_eq (A := C.av) hN]
        simp only
        rw [share_one hW he, Real.log_one]
      have hk : kEdge T M θ C C.av (caReal C) (q, n) = kOf T M θ C n := by
        rw [kOf_edge hW he]
        unfold kEdge
        simp only
        rw [← net_cond_log hN hlt.2.1 hqa (hmu0 q hlt.2.1 hlt.2.2), share_one hW he, Real.log_one, zero_add]
        congr 2
        have e1 := hV n ha
        have e2 := hV q hqa
        unfold shVal at e1 e2
        rw [e1, e2]; ring
      rw [hl, hk]
      unfold dPOf
      by_cases hsl : slotIs T q p
      · rw [if_pos ((slotOf_free hp hlt.2.1).mpr hsl), if_pos hsl]
        congr 4
        ring
      · rw [if_neg (fun hh => hsl ((slotOf_free hp hlt.2.1).mp hh)), if_neg hsl, zero_mul]
    · intro r _ hr
      rw [if_neg (fun hh => hr (edge_parent_unique hW hh he))]
    · intro hh; exact absurd (Finset.mem_range.mpr hlt.2.2) hh

end

end Larch.Compiled
