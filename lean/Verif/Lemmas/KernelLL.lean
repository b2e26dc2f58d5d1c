import Verif.Lemmas.KernelProb

namespace Larch.Kernel

open Function Larch Larch.Spec
open scoped BigOperators
open Classical

/-- a chosen node is available -/
theorem chosen_avail {T : Tree} (h : T.WF) (av : Nat → Bool) (ch : Nat → ℝ)
    (hch : ∀ a < T.nAlts, ch a ≠ 0 → av a = true) (n : Nat) :
    cascadeSum T ch n ≠ 0 → (shapeOf T av).avail n := by
  induction n using Nat.strong_induction_on with
  | _ n ih =>
    intro hn
    by_cases hna : n < T.nAlts
    · rw [cascadeSum_alt h ch hna] at hn
      exact (avail_alt av hna).mpr (hch n hna hn)
    · rw [cascadeSum_nest h ch (by omega)] at hn
      by_contra hcon
      apply hn
      apply List.sum_eq_zero
      intro x hx
      obtain ⟨c, hc, rfl⟩ := List.mem_map.mp hx
      by_contra hc0
      exact hcon (avail_parent h av (mem_kids.mp hc) (ih c (h.kids_lt hc) hc0))

theorem fold_loglike {T : Tree} (h : T.WF) (av : Nat → Bool) (θ : Nat → ℝ) (U : Arr) (ch : Nat → ℝ) (wt : ℝ)
    (r : Nat × Nat → ℝ)
    (hr : ∀ e ∈ T.edges, ch e.2 ≠ 0 → edgeLogprob T θ U e = .fin (r e)) :
    T.edges.foldl (fun x e => if ch e.2 ≠ 0 then
        x + edgeLogprob T θ U e * .fin (ch e.2) * .fin wt else x) 0 =
      .fin (T.edges.map (fun e => r e * ch e.2 * wt)).sum := by
  have key : ∀ (l : List (Nat × Nat)), (∀ e ∈ l, ch e.2 ≠ 0 → edgeLogprob T θ U e = .fin (r e)) →
      ∀ x : ℝ, l.foldl (fun x e => if ch e.2 ≠ 0 then
        x + edgeLogprob T θ U e * .fin (ch e.2) * .fin wt else x) (.fin x) =
        .fin (x + (l.map (fun e => r e * ch e.2 * wt)).sum) := by
    intro l
    induction l with
    | nil => intro _ x; simp
    | cons e l ih =>
      intro hl x
      have ih' := ih (fun y hy => hl y (List.mem_cons_of_mem _ hy))
      rw [List.foldl_cons, List.map_cons, List.sum_cons]
      by_cases hc : ch e.2 = 0
      · rw [if_neg (by simpa using hc), ih', hc]; simp
      · rw [if_pos hc, hl e List.mem_cons_self hc, X.fin_mul, X.fin_mul, X.fin_add, ih', add_assoc]
  have := key T.edges hr 0
  rw [zero_add] at this
  exact this

theorem log_prob_edge {T : Tree} (h : T.WF) (av : Nat → Bool) (mu u : Nat → ℝ) {p c : Nat}
    (hmu : mu p ≠ 0)
    (he : (p, c) ∈ T.edges) (ha : (shapeOf T av).avail c) :
    Real.log ((shapeOf T av).prob mu u c) = Real.log ((shapeOf T av).prob mu u p) +
      ((shapeOf T av).value mu u c - (shapeOf T av).value mu u p) / mu p := by
  have hp := h.edge _ he
  simp only at hp
  have hpa := avail_parent h av he ha
  have hpos := prob_pos h av mu u p (by omega) hpa
  rw [prob_edge h av mu u he, if_pos ha, ← cond_ratio h av mu u hp.2.1 hpa hmu,
    Real.log_mul (ne_of_gt hpos) (ne_of_gt (Real.exp_pos _)), Real.log_exp]

/-- telescoping of the edge-wise log likelihood -/
theorem loglike_telescope {T : Tree} (h : T.WF) (av : Nat → Bool) (mu u : Nat → ℝ) (ch : Nat → ℝ)
    (hmu : ∀ n, T.nAlts ≤ n → n < T.nNodes → mu n ≠ 0)
    (hch : ∀ a < T.nAlts, ch a ≠ 0 → av a = true) :
    (T.edges.map (fun e => ((shapeOf T av).value mu u e.2 - (shapeOf T av).value mu u e.1) / mu e.1 *
      cascadeSum T ch e.2)).sum =
      ∑ a ∈ Finset.range T.nAlts, ch a * Real.log ((shapeOf T av).prob mu u a) := by
  set L := fun n => Real.log ((shapeOf T av).prob mu u n) with hL
  set c' := cascadeSum T ch with hc'
  have e1 : T.edges.map (fun e => ((shapeOf T av).value mu u e.2 - (shapeOf T av).value mu u e.1) / mu e.1 *
      c' e.2) = T.edges.map (fun e => L e.2 * c' e.2 - L e.1 * c' e.2) := by
    apply List.map_congr_left
    rintro ⟨p, c⟩ he
    simp only
    by_cases hc0 : c' c = 0
    · rw [hc0]; ring
    · have ha := chosen_avail h av ch hch c hc0
      have hp := h.edge _ he
      simp only at hp
      have := log_prob_edge h av mu u (hmu p hp.2.1 hp.2.2) he ha
      simp only [hL]
      rw [this]; ring
  rw [e1]
  have hsub : ∀ (l : List (Nat × Nat)), (l.map (fun e => L e.2 * c' e.2 - L e.1 * c' e.2)).sum =
      (l.map (fun e => L e.2 * c' e.2)).sum - (l.map (fun e => L e.1 * c' e.2)).sum := by
    intro l
    induction l with
    | nil => simp
    | cons e l ih => simp only [List.map_cons, List.sum_cons, ih]; ring
  rw [hsub, ← sum_nodes_eq_sum_edges h (fun n => L n * c' n), sum_edges_by_parent h (fun e => L e.1 * c' e.2)]
  have e3 : ∑ n ∈ Finset.Ico T.nAlts T.nNodes, ((kids T n).map (fun c => L n * c' c)).sum =
      ∑ n ∈ Finset.Ico T.nAlts T.nNodes, L n * c' n := by
    apply Finset.sum_congr rfl
    intro n hn
    rw [Finset.mem_Ico] at hn
    rw [List.sum_map_mul_left, hc', ← cascadeSum_nest h ch hn.1]
  simp only
  have hroot := h.root
  have e4 : ∑ n ∈ Finset.Ico T.nAlts T.nNodes, L n * c' n =
      ∑ n ∈ Finset.Ico T.nAlts (T.nNodes - 1), L n * c' n + L (T.nNodes - 1) * c' (T.nNodes - 1) := by
    rw [← Finset.sum_Ico_succ_top (by omega), show T.nNodes - 1 + 1 = T.nNodes by omega]
  rw [e3, e4, ← Finset.sum_range_add_sum_Ico _ (show T.nAlts ≤ T.nNodes - 1 by omega)]
  have hr : L (T.nNodes - 1) = 0 := by simp only [hL]; rw [prob_root, Real.log_one]
  rw [hr]
  have e5 : ∑ a ∈ Finset.range T.nAlts, ch a * Real.log ((shapeOf T av).prob mu u a) =
      ∑ a ∈ Finset.range T.nAlts, L a * c' a := by
    apply Finset.sum_congr rfl
    intro a ha
    rw [Finset.mem_range] at ha
    rw [hc', cascadeSum_alt h ch ha]; ring
  rw [e5]; ring

/-- The kernel's log likelihood for assembled utilities. -/
theorem logprobPass_loglike {T : Tree} (h : T.WF) (θ : Nat → ℝ) (U : Arr) (av : Nat → Bool) (u : Nat → ℝ)
    (ch : Nat → ℝ) (wt : ℝ) (lp0 : Arr)
    (hmu : ∀ k, T.nAlts + k < T.nNodes → 0 < muOf T θ k)
    (hU : ∀ n < T.nNodes, U n = emb ((shapeOf T av).avail n) ((shapeOf T av).value (muN T θ) u n))
    (hch : ∀ a < T.nAlts, ch a ≠ 0 → av a = true) :
    (logprobPass T θ U (cascadeSum T ch) wt lp0).2 = .fin ((shapeOf T av).loglike (muN T θ) u ch wt) := by
  rw [logprobPass_snd]
  rw [fold_loglike h av θ U (cascadeSum T ch) wt (fun e => ((shapeOf T av).value (muN T θ) u e.2 -
    (shapeOf T av).value (muN T θ) u e.1) / muN T θ e.1)]
  · congr 1
    rw [List.sum_map_mul_right, loglike_telescope h av _ u ch _ hch]
    · unfold Shape.loglike; rw [mul_comm]; rfl
    · intro n h1 h2
      exact ne_of_gt (hmu _ (by omega))
  · rintro ⟨p, c⟩ he hc
    rw [edgeLogprob_eq h θ U av _ hmu hU he]
    simp only [emb, chosen_avail h av ch hch c hc, if_true]

end Larch.Kernel
