import Verif.Lemmas.CompiledMnl

/-! Facts about the network specification (`Spec.Network`). -/

namespace Larch.Compiled

open Function Larch Larch.Kernel Larch.Spec
open scoped BigOperators
open Classical

section sums

variable {T : Tree}

theorem sum_fin_range {n N : Nat} (f : Nat → ℝ) (hf : ∀ c, f c ≠ 0 → c < n ∧ c < N) :
    ∑ c : Fin n, f c = ∑ c ∈ Finset.range N, f c := by
  rw [Fin.sum_univ_eq_sum_range f n]
  have h1 : ∑ c ∈ Finset.range n, f c = ∑ c ∈ Finset.range n ∩ Finset.range N, f c := by
    symm
    apply Finset.sum_subset Finset.inter_subset_left
    intro c hc hn
    by_contra h0
    exact hn (Finset.mem_inter.mpr ⟨hc, Finset.mem_range.mpr (hf c h0).2⟩)
  have h2 : ∑ c ∈ Finset.range N, f c = ∑ c ∈ Finset.range n ∩ Finset.range N, f c := by
    symm
    apply Finset.sum_subset Finset.inter_subset_right
    intro c hc hn
    by_contra h0
    exact hn (Finset.mem_inter.mpr ⟨Finset.mem_range.mpr (hf c h0).1, hc⟩)
  rw [h1, h2]

theorem edge_lt (h : Network T) {p c : Nat} (he : (p, c) ∈ T.edges) : c < p ∧ T.nAlts ≤ p ∧ p < T.nNodes := h.edge _ he

theorem sum_out (h : Network T) (n : Nat) (f : Nat × Nat → ℝ) :
    ((T.edges.filter (fun e => e.1 = n)).map f).sum = ∑ c ∈ Finset.range T.nNodes, if (n, c) ∈ T.edges then f (n, c) else 0 := by
  rw [← List.sum_toFinset _ (h.nodup.filter _), ← Finset.sum_filter]
  refine Finset.sum_nbij' (fun e => e.2) (fun c => (n, c)) ?_ ?_ ?_ ?_ ?_
  · rintro ⟨a, b⟩ he
    simp only [List.mem_toFinset, List.mem_filter, decide_eq_true_eq] at he
    obtain ⟨h1, h2⟩ := he
    subst h2
    have := edge_lt h h1
    simp only [Finset.mem_filter, Finset.mem_range]
    exact ⟨by omega, h1⟩
  · intro c hc
    simp only [Finset.mem_filter, Finset.mem_range] at hc
    simp [hc.2]
  · rintro ⟨a, b⟩ he
    simp only [List.mem_toFinset, List.mem_filter, decide_eq_true_eq] at he
    rw [he.2]
  · intro c _; rfl
  · rintro ⟨a, b⟩ he
    simp only [List.mem_toFinset, List.mem_filter, decide_eq_true_eq] at he
    simp [he.2]

theorem sum_in (h : Network T) (n : Nat) (f : Nat × Nat → ℝ) :
    ((T.edges.filter (fun e => e.2 = n)).map f).sum = ∑ p ∈ Finset.range T.nNodes, if (p, n) ∈ T.edges then f (p, n) else 0 := by
  rw [← List.sum_toFinset _ (h.nodup.filter _), ← Finset.sum_filter]
  refine Finset.sum_nbij' (fun e => e.1) (fun c => (c, n)) ?_ ?_ ?_ ?_ ?_
  · rintro ⟨a, b⟩ he
    simp only [List.mem_toFinset, List.mem_filter, decide_eq_true_eq] at he
    obtain ⟨h1, h2⟩ := he
    subst h2
    have := edge_lt h h1
    simp only [Finset.mem_filter, Finset.mem_range]
    exact ⟨by omega, h1⟩
  · intro c hc
    simp only [Finset.mem_filter, Finset.mem_range] at hc
    simp [hc.2]
  · rintro ⟨a, b⟩ he
    simp only [List.mem_toFinset, List.mem_filter, decide_eq_true_eq] at he
    rw [← he.2]
  · intro c _; rfl
  · rintro ⟨a, b⟩ he
    simp only [List.mem_toFinset, List.mem_filter, decide_eq_true_eq] at he
    simp [← he.2]

theorem length_in (h : Network T) (c : Nat) : (T.edges.filter (fun e => e.2 = c)).length = nParents T c := by
  have := sum_in h c (fun _ => 1)
  rw [List.map_const', List.sum_replicate, ← Finset.sum_filter] at this
  simp only [nsmul_eq_mul, mul_one, Finset.sum_const] at this
  unfold nParents
  exact_mod_cast this

theorem nParents_pos (h : Network T) {p c : Nat} (he : (p, c) ∈ T.edges) : 0 < nParents T c := by
  rw [← length_in h]
  exact List.length_pos_of_mem (a := (p, c)) (List.mem_filter.mpr ⟨he, by simp⟩)

end sums

/-! ### The network -/

section net

variable {T : Tree} {av : Nat → Bool} {mu u : Nat → ℝ}

@[simp] theorem netOf_nAlts : (netOf T av).nAlts = T.nAlts := rfl
@[simp] theorem netOf_nNodes : (netOf T av).nNodes = T.nNodes := rfl
@[simp] theorem netOf_child {p c : Nat} : (netOf T av).child p c ↔ (p, c) ∈ T.edges := Iff.rfl

theorem share_pos (h : Network T) {p c : Nat} (he : (p, c) ∈ T.edges) : 0 < (netOf T av).share p c := by
  have := nParents_pos h he
  show (0 : ℝ) < 1 / nParents T c
  positivity

theorem net_avail_alt {a : Nat} (ha : a < T.nAlts) : (netOf T av).avail a ↔ av a = true := by
  rw [Net.avail]; simp [netOf, ha]

theorem net_avail_nest (h : Network T) {n : Nat} (hn : T.nAlts ≤ n) :
    (netOf T av).avail n ↔ ∃ c, (n, c) ∈ T.edges ∧ (netOf T av).avail c := by
  rw [Net.avail, if_neg (by simp; omega)]
  constructor
  · rintro ⟨c, h1, h2⟩; exact ⟨c, h1, h2⟩
  · rintro ⟨c, h1, h2⟩; exact ⟨⟨c, (edge_lt h h1).1⟩, h1, h2⟩

theorem net_avail_parent (h : Network T) {p c : Nat} (he : (p, c) ∈ T.edges) (hc : (netOf T av).avail c) :
    (netOf T av).avail p := (net_avail_nest h (edge_lt h he).2.1).mpr ⟨c, he, hc⟩

theorem net_avail_lt (h : Network T) {n : Nat} (hn : T.nAlts ≤ n) (ha : (netOf T av).avail n) : n < T.nNodes := by
  obtain ⟨c, hc, _⟩ := (net_avail_nest h hn).mp ha
  exact (edge_lt h hc).2.2

/-- the term of child `c` in the denominator of nest `n` -/
noncomputable def term (T : Tree) (av : Nat → Bool) (mu u : Nat → ℝ) (n c : Nat) : ℝ :=
  Real.exp ((Real.log ((netOf T av).share n c) + (netOf T av).value mu u c) / mu n)

theorem net_denom (h : Network T) (n : Nat) : (netOf T av).denom mu u n =
    ∑ c ∈ Finset.range T.nNodes, if (n, c) ∈ T.edges ∧ (netOf T av).avail c then term T av mu u n c else 0 := by
  rw [← sum_fin_range (n := n) (N := T.nNodes)
    (fun c => if (n, c) ∈ T.edges ∧ (netOf T av).avail c then term T av mu u n c else 0) (fun c hc => by
    by_cases h1 : (n, c) ∈ T.edges ∧ (netOf T av).avail c
    · have := edge_lt h h1.1; omega
    · exact absurd (if_neg h1) hc)]
  unfold Net.denom
  apply Finset.sum_congr rfl
  intro c _
  by_cases h1 : (n, (c : Nat)) ∈ T.edges ∧ (netOf T av).avail c
  · rw [if_pos h1, if_pos (by exact h1)]; rfl
  · rw [if_neg h1, if_neg (by exact h1)]

theorem net_value_alt {a : Nat} (ha : a < T.nAlts) : (netOf T av).value mu u a = u a := by
  rw [Net.value]; simp [netOf, ha]

theorem net_value_nest {n : Nat} (hn : T.nAlts ≤ n) :
    (netOf T av).value mu u n = mu n * Real.log ((netOf T av).denom mu u n) := by
  rw [Net.value, if_neg (by simp; omega)]; rfl

theorem term_pos (n c : Nat) : 0 < term T av mu u n c := Real.exp_pos _

theorem net_denom_pos (h : Network T) {n : Nat} (hn : T.nAlts ≤ n) (ha : (netOf T av).avail n) :
    0 < (netOf T av).denom mu u n := by
  rw [net_denom h]
  obtain ⟨c, hc, hca⟩ := (net_avail_nest h hn).mp ha
  have hlt := edge_lt h hc
  refine lt_of_lt_of_le (term_pos (T := T) (av := av) (mu := mu) (u := u) n c) ?_
  have := Finset.single_le_sum (f := fun c => if (n, c) ∈ T.edges ∧ (netOf T av).avail c then term T av mu u n c else 0)
    (fun b _ => by split_ifs; exacts [(term_pos _ _).le, le_rfl]) (Finset.mem_range.mpr (show c < T.nNodes by omega))
  simpa [hc, hca] using this

theorem net_cond (p c : Nat) : (netOf T av).cond mu u p c = term T av mu u p c / (netOf T av).denom mu u p := rfl

theorem net_cond_log (h : Network T) {p : Nat} (hn : T.nAlts ≤ p) (ha : (netOf T av).avail p) (hmu : mu p ≠ 0) (c : Nat) :
    Real.exp ((Real.log ((netOf T av).share p c) + (netOf T av).value mu u c - (netOf T av).value mu u p) / mu p) =
      (netOf T av).cond mu u p c := by
  rw [net_cond, term, sub_div, Real.exp_sub, net_value_nest hn, mul_div_cancel_left₀ _ hmu,
    Real.exp_log (net_denom_pos h hn ha)]

theorem net_prob_root (h : Network T) : (netOf T av).prob mu u (T.nNodes - 1) = 1 := by
  have := h.root
  rw [Net.prob, if_pos (by simp; omega)]

theorem net_prob (h : Network T) {n : Nat} (hn : n + 1 < T.nNodes) : (netOf T av).prob mu u n =
    if (netOf T av).avail n then ∑ p ∈ Finset.range T.nNodes, if (p, n) ∈ T.edges then
      (netOf T av).prob mu u p * (netOf T av).cond mu u p n else 0 else 0 := by
  rw [Net.prob, if_neg (by simp; omega)]
  by_cases ha : (netOf T av).avail n
  · rw [if_pos ha, if_pos ha]
    simp only [netOf_nNodes, netOf_child]
    have e1 := Fin.sum_univ_eq_sum_range (fun k => if (n + 1 + k, n) ∈ T.edges then
      (netOf T av).prob mu u (n + 1 + k) * (netOf T av).cond mu u (n + 1 + k) n else 0) (T.nNodes - (n + 1))
    refine Eq.trans (by exact e1) ?_
    rw [← Finset.sum_Ico_eq_sum_range (fun p => if (p, n) ∈ T.edges then
      (netOf T av).prob mu u p * (netOf T av).cond mu u p n else 0) (n + 1) T.nNodes]
    apply Finset.sum_subset
    · intro p hp; rw [Finset.mem_Ico] at hp; exact Finset.mem_range.mpr hp.2
    · intro p hp hpn
      rw [if_neg]
      intro he
      have := edge_lt h he
      exact hpn (Finset.mem_Ico.mpr ⟨by omega, this.2.2⟩)
  · rw [if_neg ha, if_neg ha]

/-- downward induction -/
theorem net_down (h : Network T) {motive : Nat → Prop} (hroot : motive (T.nNodes - 1))
    (hstep : ∀ n, n + 1 < T.nNodes → (∀ p, (p, n) ∈ T.edges → motive p) → motive n) : ∀ n < T.nNodes, motive n := by
  have key : ∀ k n, n < T.nNodes → T.nNodes - n ≤ k → motive n := by
    intro k
    induction k with
    | zero => intro n hn hk; omega
    | succ k ih =>
      intro n hn hk
      by_cases hr : n = T.nNodes - 1
      · rw [hr]; exact hroot
      · refine hstep n (by omega) (fun p hp => ?_)
        have := edge_lt h hp
        exact ih p this.2.2 (by omega)
  intro n hn
  exact key _ n hn le_rfl

theorem net_prob_nonneg (h : Network T) : ∀ n < T.nNodes, 0 ≤ (netOf T av).prob mu u n := by
  refine net_down h (by rw [net_prob_root h]; exact zero_le_one) ?_
  intro n hn ih
  rw [net_prob h hn]
  split_ifs with ha
  · apply Finset.sum_nonneg
    intro p _
    split_ifs with he
    · rw [net_cond]
      have h1 := net_denom_pos (mu := mu) (u := u) h (edge_lt h he).2.1 (net_avail_parent h he ha)
      have h2 := term_pos (T := T) (av := av) (mu := mu) (u := u) p n
      have := ih p he
      positivity
    · exact le_rfl
  · exact le_rfl

theorem net_prob_pos (h : Network T) : ∀ n < T.nNodes, (netOf T av).avail n → 0 < (netOf T av).prob mu u n := by
  refine net_down h (fun _ => by rw [net_prob_root h]; exact zero_lt_one) ?_
  intro n hn ih ha
  rw [net_prob h hn, if_pos ha]
  obtain ⟨q, hq⟩ := h.covered n hn
  have hqa := net_avail_parent h hq ha
  have h1 := net_denom_pos (mu := mu) (u := u) h (edge_lt h hq).2.1 hqa
  have h2 := term_pos (T := T) (av := av) (mu := mu) (u := u) q n
  have h3 := ih q hq hqa
  have hpos : 0 < (netOf T av).prob mu u q * (netOf T av).cond mu u q n := by rw [net_cond]; positivity
  have := Finset.single_le_sum (f := fun p => if (p, n) ∈ T.edges then
      (netOf T av).prob mu u p * (netOf T av).cond mu u p n else 0) (fun p _ => by
        split_ifs with he
        · rw [net_cond]
          have k1 := net_denom_pos (mu := mu) (u := u) h (edge_lt h he).2.1 (net_avail_parent h he ha)
          have k2 := term_pos (T := T) (av := av) (mu := mu) (u := u) p n
          have k3 := net_prob_nonneg (av := av) (mu := mu) (u := u) h p (edge_lt h he).2.2
          positivity
        · exact le_rfl) (Finset.mem_range.mpr (edge_lt h hq).2.2)
  simp only [hq, if_true] at this
  exact lt_of_lt_of_le hpos this

/-- conditional probabilities inside an available nest add up to 1 -/
theorem net_cond_sum (h : Network T) {p : Nat} (hn : T.nAlts ≤ p) (ha : (netOf T av).avail p) :
    ∑ c ∈ Finset.range T.nNodes, (if (p, c) ∈ T.edges ∧ (netOf T av).avail c then (netOf T av).cond mu u p c else 0) = 1 := by
  have hd := net_denom_pos (mu := mu) (u := u) h hn ha
  have : ∀ c, (if (p, c) ∈ T.edges ∧ (netOf T av).avail c then (netOf T av).cond mu u p c else 0) =
      (if (p, c) ∈ T.edges ∧ (netOf T av).avail c then term T av mu u p c else 0) / (netOf T av).denom mu u p := by
    intro c; split_ifs
    · rfl
    · rw [zero_div]
  simp only [this]
  rw [← Finset.sum_div, ← net_denom h, div_self (ne_of_gt hd)]

/-- The probabilities of the alternatives add up to 1. -/
theorem net_prob_sum (h : Network T) (ha : (netOf T av).avail (T.nNodes - 1)) :
    ∑ a ∈ Finset.range T.nAlts, (netOf T av).prob mu u a = 1 := by
  set P := (netOf T av).prob mu u with hP
  have hroot := h.root
  have e1 : ∑ n ∈ Finset.range (T.nNodes - 1), P n = ∑ n ∈ Finset.range T.nNodes, ∑ p ∈ Finset.range T.nNodes,
      (if (p, n) ∈ T.edges ∧ (netOf T av).avail n then P p * (netOf T av).cond mu u p n else 0) := by
    have hlast : ∑ p ∈ Finset.range T.nNodes,
      (if (p, T.nNodes - 1) ∈ T.edges ∧ (netOf T av).avail (T.nNodes - 1) then
        P p * (netOf T av).cond mu u p (T.nNodes - 1) else 0) = 0 := by
      apply Finset.sum_eq_zero
      intro p _
      rw [if_neg]
      rintro ⟨he, _⟩
      have := edge_lt h he; omega
    conv_rhs => rw [show T.nNodes = T.nNodes - 1 + 1 by omega, Finset.sum_range_succ]
    rw [show T.nNodes - 1 + 1 = T.nNodes by omega, hlast, add_zero]
    apply Finset.sum_congr rfl
    intro n hn
    rw [Finset.mem_range] at hn
    rw [hP, net_prob h (by omega)]
    by_cases hna : (netOf T av).avail n
    · simp only [hna, if_true, and_true]
    · simp [hna]
  rw [Finset.sum_comm] at e1
  have e2 : ∀ p ∈ Finset.range T.nNodes, ∑ n ∈ Finset.range T.nNodes,
      (if (p, n) ∈ T.edges ∧ (netOf T av).avail n then P p * (netOf T av).cond mu u p n else 0) =
      if T.nAlts ≤ p then P p else 0 := by
    intro p hp
    rw [Finset.mem_range] at hp
    by_cases hpa : T.nAlts ≤ p
    · rw [if_pos hpa]
      by_cases hav : (netOf T av).avail p
      · have := net_cond_sum (mu := mu) (u := u) h hpa hav
        calc _ = P p * ∑ c ∈ Finset.range T.nNodes, (if (p, c) ∈ T.edges ∧ (netOf T av).avail c then (netOf T av).cond mu u p c else 0) := by
              rw [Finset.mul_sum]
              apply Finset.sum_congr rfl
              intro c _
              split_ifs
              · rfl
              · rw [mul_zero]
          _ = P p := by rw [this, mul_one]
      · have h0 : P p = 0 := by
          have : p ≠ T.nNodes - 1 := fun hh => hav (hh ▸ ha)
          rw [hP, net_prob h (by omega), if_neg hav]
        rw [h0]
        apply Finset.sum_eq_zero
        intro c _
        split_ifs
        · rw [zero_mul]
        · rfl
    · rw [if_neg hpa]
      apply Finset.sum_eq_zero
      intro c _
      rw [if_neg]
      rintro ⟨he, _⟩
      exact hpa (edge_lt h he).2.1
  rw [Finset.sum_congr rfl e2] at e1
  have e3 : ∑ p ∈ Finset.range T.nNodes, (if T.nAlts ≤ p then P p else 0) = ∑ p ∈ Finset.Ico T.nAlts T.nNodes, P p := by
    rw [← Finset.sum_filter]
    congr 1
    ext p
    simp only [Finset.mem_filter, Finset.mem_range, Finset.mem_Ico]
    omega
  have e4 : ∑ n ∈ Finset.Ico T.nAlts T.nNodes, P n =
      ∑ n ∈ Finset.Ico T.nAlts (T.nNodes - 1), P n + P (T.nNodes - 1) := by
    rw [← Finset.sum_Ico_succ_top (by omega), show T.nNodes - 1 + 1 = T.nNodes by omega]
  rw [e3, e4, ← Finset.sum_range_add_sum_Ico P (show T.nAlts ≤ T.nNodes - 1 by omega)] at e1
  have hr : P (T.nNodes - 1) = 1 := net_prob_root h
  linarith

/-! ### Shifting all utilities -/

theorem net_shift_value (h : Network T) (s : ℝ) (hmu : ∀ n, T.nAlts ≤ n → n < T.nNodes → mu n ≠ 0) :
    ∀ n, (netOf T av).avail n → (netOf T av).value mu (fun a => u a - s) n = (netOf T av).value mu u n - s := by
  intro n
  induction n using Nat.strong_induction_on with
  | _ n ih =>
    intro ha
    by_cases hn : n < T.nAlts
    · rw [net_value_alt hn, net_value_alt hn]
    · have hn' : T.nAlts ≤ n := by omega
      have hm := hmu n hn' (net_avail_lt h hn' ha)
      rw [net_value_nest hn', net_value_nest hn']
      have : (netOf T av).denom mu (fun a => u a - s) n = (netOf T av).denom mu u n * Real.exp (-(s / mu n)) := by
        rw [net_denom h, net_denom h, Finset.sum_mul]
        apply Finset.sum_congr rfl
        intro c _
        split_ifs with hc
        · unfold term
          rw [ih c (edge_lt h hc.1).1 hc.2, ← Real.exp_add]
          congr 1; field_simp; ring
        · rw [zero_mul]
      rw [this, Real.log_mul (ne_of_gt (net_denom_pos h hn' ha)) (ne_of_gt (Real.exp_pos _)), Real.log_exp]
      field_simp; ring

theorem net_shift_prob (h : Network T) (s : ℝ) (hmu : ∀ n, T.nAlts ≤ n → n < T.nNodes → mu n ≠ 0) :
    ∀ n < T.nNodes, (netOf T av).prob mu (fun a => u a - s) n = (netOf T av).prob mu u n := by
  refine net_down h (by rw [net_prob_root h, net_prob_root h]) ?_
  intro n hn ih
  rw [net_prob h hn, net_prob h hn]
  by_cases ha : (netOf T av).avail n
  · rw [if_pos ha, if_pos ha]
    apply Finset.sum_congr rfl
    intro p _
    split_ifs with he
    · have hp := edge_lt h he
      have hpa := net_avail_parent h he ha
      have hm := hmu p hp.2.1 hp.2.2
      rw [ih p he, ← net_cond_log h hp.2.1 hpa hm, ← net_cond_log h hp.2.1 hpa hm,
        net_shift_value h s hmu n ha, net_shift_value h s hmu p hpa]
      congr 3; ring
    · rfl
  · rw [if_neg ha, if_neg ha]

end net

end Larch.Compiled
