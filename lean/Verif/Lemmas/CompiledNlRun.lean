import Verif.Lemmas.CompiledNlGrad
import Verif.Lemmas.KernelHold

/-! One case of the compiled nested/network logit kernel. -/

namespace Larch.Compiled

open Function Larch Larch.Kernel Larch.Spec
open scoped BigOperators
open Classical

section

variable {T : Tree} {M : Terms} {θ : Nat → ℝ} {C : Case} {A : Nat → Bool} {x : Nat → Nat → ℝ}

/-- declared utilities less the overflow guard's shift -/
noncomputable def shifted (T : Tree) (M : Terms) (θ : Nat → ℝ) (C : Case) (A : Nat → Bool) (x : Nat → Nat → ℝ) (a : Nat) : ℝ :=
  utility M θ (coReal C) x a - shiftV T.nAlts A (utility M θ (coReal C) x)

/-- values of the nodes with the shifted utilities -/
noncomputable def shVal (T : Tree) (M : Terms) (θ : Nat → ℝ) (C : Case) (A : Nat → Bool) (x : Nat → Nat → ℝ) (n : Nat) : ℝ :=
  (netOf T A).value (muN T θ) (shifted T M θ C A x) n

theorem run_U (h : NetworkCase T M θ C A x) (hold : Nat → Bool) {n : Nat} (hn : n < T.nNodes) :
    (nlCase T M hold θ C).utility n = emb ((netOf T A).avail n) (shVal T M θ C A x n) :=
  upPass_value h.net _ h.mu (assemble_real h.offers h.sizes hold).1 n hn

theorem run_cl (h : NetworkCase T M θ C A x) (hold : Nat → Bool) {e : Nat × Nat} (he : e ∈ T.edges) :
    condLog T θ (nlCase T M hold θ C).utility e = emb ((netOf T A).avail e.2)
      ((logalpha T e + shVal T M θ C A x e.2 - shVal T M θ C A x e.1) / muN T θ e.1) :=
  condLog_eq h.net _ _ h.mu (fun _ hn => run_U h hold hn) he

theorem run_P (h : NetworkCase T M θ C A x) (hold : Nat → Bool) {n : Nat} (hn : n < T.nNodes) :
    (nlCase T M hold θ C).probability n = .fin (netProb T M θ C A x n) := by
  have := probPass_value (A := A) (u := shifted T M θ C A x) h.net (condLog T θ (nlCase T M hold θ C).utility) h.mu
    (fun e he => run_cl h hold he) n hn
  unfold netProb
  rw [← net_shift_prob h.net (shiftV T.nAlts A (utility M θ (coReal C) x)) (fun n h1 h2 => ne_of_gt (h.mu n h1 h2)) n hn]
  exact this

theorem run_chosen (h : NetworkCase T M θ C A x) (hold : Nat → Bool) (hch : ∀ a < T.nAlts, C.ch a ≠ 0 → A a = true) :
    ∀ a < T.nAlts, C.ch a ≠ 0 → (nlCase T M hold θ C).probability a = .fin (netProb T M θ C A x a) ∧
      0 < netProb T M θ C A x a := by
  intro a ha hc
  have hlt := lt_trans ha h.net.root
  exact ⟨run_P h hold hlt, net_prob_pos h.net a hlt ((net_avail_alt ha).mpr (hch a ha hc))⟩

theorem run_ll (h : NetworkCase T M θ C A x) (hold : Nat → Bool) (hch : ∀ a < T.nAlts, C.ch a ≠ 0 → A a = true) :
    (nlCase T M hold θ C).ll = .fin (netLoglike T M θ C A x) := by
  have := caseLL_real T.nAlts (nlCase T M hold θ C).probability C.ch (netProb T M θ C A x) (run_chosen h hold hch)
  have hdef : (nlCase T M hold θ C).ll = caseLL T.nAlts (nlCase T M hold θ C).probability C.ch * .fin C.wt := rfl
  rw [hdef, this, X.fin_mul, mul_comm]
  rfl

/-- The conditional probability of an edge at the shifted utilities. -/
noncomputable def kEdge (T : Tree) (M : Terms) (θ : Nat → ℝ) (C : Case) (A : Nat → Bool) (x : Nat → Nat → ℝ) (e : Nat × Nat) : ℝ :=
  (netOf T A).cond (muN T θ) (shifted T M θ C A x) e.1 e.2

theorem run_k (h : NetworkCase T M θ C A x) (hold : Nat → Bool) {e : Nat × Nat} (he : e ∈ T.edges) :
    if (netOf T A).avail e.2 then X.gt (condLog T θ (nlCase T M hold θ C).utility e) .ninf ∧
      X.exp (condLog T θ (nlCase T M hold θ C).utility e) = .fin (kEdge T M θ C A x e)
    else ¬ X.gt (condLog T θ (nlCase T M hold θ C).utility e) .ninf := by
  rw [run_cl h hold he]
  have hlt := h.net.edge e he
  unfold emb
  by_cases ha : (netOf T A).avail e.2
  · rw [if_pos ha, if_pos ha]
    refine ⟨X.fin_gt_ninf _, ?_⟩
    rw [X.exp_fin, logalpha_eq (A := A) h.net]
    unfold shVal kEdge
    rw [net_cond_log h.net hlt.2.1 (net_avail_parent h.net (c := e.2) he ha) (ne_of_gt (h.mu _ hlt.2.1 hlt.2.2))]
  · rw [if_neg ha, if_neg ha]; exact X.not_ninf_gt _

/-- gradient of the assembled utilities as reals -/
noncomputable def d0Of (T : Tree) (M : Terms) (hold : Nat → Bool) (θ : Nat → ℝ) (C : Case) (n p : Nat) : ℝ :=
  ((Compiled.assemble θ hold T.nAlts M C).dU n p).toReal

theorem d0Of_fin (h : NetworkCase T M θ C A x) (hold : Nat → Bool) (n p : Nat) :
    (Compiled.assemble θ hold T.nAlts M C).dU n p = .fin (d0Of T M hold θ C n p) := by
  obtain ⟨r, hr⟩ := (assemble_real h.offers h.sizes hold).2.2.2 n p
  unfold d0Of
  rw [hr]; rfl

theorem d0Of_alt (h : NetworkCase T M θ C A x) (hold : Nat → Bool) {a : Nat} (ha : a < T.nAlts) (hA : A a = true) (p : Nat) :
    d0Of T M hold θ C a p = codeCoef hold M θ (coReal C) x a p := by
  unfold d0Of
  rw [(assemble_real h.offers h.sizes hold).2.2.1 a ha hA p]; rfl

/-- the utility gradient rows computed for a case -/
noncomputable def rowsOf (T : Tree) (M : Terms) (hold : Nat → Bool) (θ : Nat → ℝ) (C : Case) : Arr2 :=
  dUPass T θ hold (nlCase T M hold θ C).utility (condLog T θ (nlCase T M hold θ C).utility)
    (Compiled.assemble θ hold T.nAlts M C).dU

theorem dUStep_fin (h : NetworkCase T M θ C A x) (hold : Nat → Bool) {e : Nat × Nat} (he : e ∈ T.edges) (D : Arr2)
    (hD : ∀ n p, ∃ r, D n p = .fin r) : ∀ n p, ∃ r,
      dUStep T θ hold (nlCase T M hold θ C).utility (condLog T θ (nlCase T M hold θ C).utility) D e n p = .fin r := by
  have hlt := h.net.edge e he
  have hk := run_k h hold he
  rw [dUStep_eq _ _ _ _ (by omega)]
  by_cases ha : (netOf T A).avail e.2
  · rw [if_pos ha] at hk
    rw [if_pos hk.1]
    have hUc : (nlCase T M hold θ C).utility e.2 = .fin (shVal T M θ C A x e.2) := by
      rw [run_U h hold (by omega)]; unfold emb; rw [if_pos ha]
    have hadj : ∀ p, ∃ r, adj T θ hold (nlCase T M hold θ C).utility e.2 (D e.2) p = .fin r := by
      intro p
      obtain ⟨r, hr⟩ := hD e.2 p
      unfold adj
      split_ifs with hs
      · rw [hr, hUc, X.fin_add, muOf_nest hs.1, X.fin_div (ne_of_gt (h.mu _ hs.1 (by omega)))]
        exact ⟨_, rfl⟩
      · exact ⟨r, hr⟩
    have hsub : ∃ r, sub1 T θ (nlCase T M hold θ C).utility (.fin (kEdge T M θ C A x e)) e = .fin r := by
      unfold sub1
      rw [hUc]
      split_ifs
      · exact ⟨_, rfl⟩
      · exact ⟨_, rfl⟩
    obtain ⟨sr, hsr⟩ := hsub
    intro n p
    by_cases hn1 : n = e.1
    · subst hn1
      rw [update_self]
      unfold accRow
      rw [if_pos hk.1, hk.2, hsr]
      obtain ⟨r1, hr1⟩ := hD e.1 p
      obtain ⟨r2, hr2⟩ := hadj p
      rw [hr1, hr2]
      split_ifs
      · exact ⟨_, rfl⟩
      · exact ⟨_, rfl⟩
    · rw [update_of_ne hn1]
      by_cases hn2 : n = e.2
      · subst hn2; rw [update_self]; exact hadj p
      · rw [update_of_ne hn2]; exact hD n p
  · rw [if_neg ha] at hk
    rw [if_neg hk]; exact hD

theorem rowsOf_fin (h : NetworkCase T M θ C A x) (hold : Nat → Bool) (n p : Nat) : ∃ r, rowsOf T M hold θ C n p = .fin r := by
  unfold rowsOf dUPass
  have gen : ∀ (l : List (Nat × Nat)), (∀ e ∈ l, e ∈ T.edges) → ∀ D : Arr2, (∀ n p, ∃ r, D n p = .fin r) →
      ∀ n p, ∃ r, l.foldl (dUStep T θ hold (nlCase T M hold θ C).utility (condLog T θ (nlCase T M hold θ C).utility)) D n p = .fin r := by
    intro l
    induction l with
    | nil => intro _ D hD; exact hD
    | cons e l ih =>
      intro hl D hD
      rw [List.foldl_cons]
      exact ih (fun y hy => hl y (List.mem_cons_of_mem _ hy)) _ (dUStep_fin h hold (hl e List.mem_cons_self) D hD)
  refine gen T.edges (fun e he => he) _ ?_ n p
  intro n p
  split_ifs
  · exact ⟨0, rfl⟩
  · exact ⟨_, d0Of_fin h hold n p⟩

/-- the recursion of the probability gradients -/
theorem run_dP (h : NetworkCase T M θ C A x) (hold : Nat → Bool) :
    ∃ Q : Nat → Nat → ℝ,
      (∀ n < T.nNodes, (netOf T A).avail n → ∀ p, (nlCase T M hold θ C).dprobability n p = .fin (Q n p)) ∧
      (∀ p, Q (T.nNodes - 1) p = 0) ∧
      (∀ n, n + 1 < T.nNodes → (netOf T A).avail n → ∀ p, Q n p = ∑ q ∈ Finset.range T.nNodes, if (q, n) ∈ T.edges then
        (((rowsOf T M hold θ C n p).toReal - (rowsOf T M hold θ C q p).toReal + (if slotOf T hold q = some p then 1 else 0) *
          ((shVal T M θ C A x q - shVal T M θ C A x n) / muN T θ q - logalpha T (q, n) / muN T θ q)) *
          (netProb T M θ C A x q / muN T θ q) + Q q p) * kEdge T M θ C A x (q, n) else 0) := by
  have := dPPass_real (A := A) (θ := θ) (hold := hold) h.net (nlCase T M hold θ C).utility (nlCase T M hold θ C).probability
    (shVal T M θ C A x) (netProb T M θ C A x) (kEdge T M θ C A x) (condLog T θ (nlCase T M hold θ C).utility)
    (rowsOf T M hold θ C) (fun n p => (rowsOf T M hold θ C n p).toReal) (fun n h1 h2 => ne_of_gt (h.mu n h1 h2))
    (fun n hn ha => by rw [run_U h hold hn]; unfold emb; rw [if_pos ha]) (fun n hn _ => run_P h hold hn)
    (fun e he ha => by have := run_k h hold he; rw [if_pos ha] at this; exact this.2)
    (fun n hn ha p => by obtain ⟨r, hr⟩ := rowsOf_fin h hold n p; rw [hr]; rfl)
  exact this

/-- gradient and BHHH contributions from the probability gradients -/
theorem run_grad (h : NetworkCase T M θ C A x) (hold : Nat → Bool) (hch : ∀ a < T.nAlts, C.ch a ≠ 0 → A a = true)
    (Q : Nat → Nat → ℝ)
    (hQ : ∀ n < T.nNodes, (netOf T A).avail n → ∀ p, (nlCase T M hold θ C).dprobability n p = .fin (Q n p)) :
    (∀ p, (nlCase T M hold θ C).dll p =
      .fin (C.wt * ∑ a ∈ Finset.range T.nAlts, C.ch a * (Q a p / netProb T M θ C A x a))) ∧
    (∀ p q, (nlCase T M hold θ C).bhhh p q = .fin (C.wt * ∑ a ∈ Finset.range T.nAlts,
      C.ch a * ((Q a p / netProb T M θ C A x a) * (Q a q / netProb T M θ C A x a)))) := by
  by_cases hw : C.wt = 0
  · have hdef : (nlCase T M hold θ C).dll = fun _ => 0 := by
      simp only [nlCase, if_pos hw]
    have hdef2 : (nlCase T M hold θ C).bhhh = fun _ _ => 0 := by
      simp only [nlCase, if_pos hw]
    rw [hdef, hdef2, hw]
    simp [X.zero_def]
  · have := nlGrad_real T.nAlts C.ch C.wt (nlCase T M hold θ C).probability (nlCase T M hold θ C).dprobability
      (netProb T M θ C A x) Q (run_chosen h hold hch)
      (fun a ha hc p => hQ a (lt_trans ha h.net.root) ((net_avail_alt ha).mpr (hch a ha hc)) p)
    have hdef : (nlCase T M hold θ C).dll = (nlGrad T.nAlts C.ch C.wt (nlCase T M hold θ C).probability
        (nlCase T M hold θ C).dprobability).dll := by
      simp only [nlCase, if_neg hw]
    have hdef2 : (nlCase T M hold θ C).bhhh = (nlGrad T.nAlts C.ch C.wt (nlCase T M hold θ C).probability
        (nlCase T M hold θ C).dprobability).bhhh := by
      simp only [nlCase, if_neg hw]
    rw [hdef, hdef2]
    exact this

theorem slotOf_free {hold : Nat → Bool} {p : Nat} (hp : hold p = false) {n : Nat} (hn : T.nAlts ≤ n) :
    slotOf T hold n = some p ↔ T.muSlot (n - T.nAlts) = some p := by
  unfold slotOf
  rw [if_neg (by omega)]
  cases hs : T.muSlot (n - T.nAlts) with
  | none => simp
  | some s =>
    simp only [Option.some.injEq]
    by_cases hh : hold s = true
    · rw [if_pos hh]
      constructor
      · intro hx; cases hx
      · intro hx; rw [hx, hp] at hh; cases hh
    · rw [if_neg hh, Option.some.injEq]

theorem slotOf_held {hold : Nat → Bool} {p : Nat} (hp : hold p = true) (n : Nat) : slotOf T hold n ≠ some p := by
  unfold slotOf
  split_ifs
  · simp
  · cases T.muSlot (n - T.nAlts) with
    | none => simp
    | some s =>
      simp only
      split_ifs with hh
      · simp
      · intro hx; rw [Option.some.injEq] at hx; rw [hx] at hh; exact hh hp

theorem alpha_single (h : Network T) (h1 : SingleNests T) {n c : Nat} (he : (n, c) ∈ T.edges) (hc : T.nAlts ≤ c) :
    alpha T (n, c) = 1 := by
  unfold alpha
  rw [length_in h]
  have : (Finset.range T.nNodes).filter (fun p => (p, c) ∈ T.edges) = {n} := by
    ext q
    simp only [Finset.mem_filter, Finset.mem_range, Finset.mem_singleton]
    constructor
    · rintro ⟨_, hq⟩; exact h1 q n c hq he hc
    · rintro rfl; exact ⟨(edge_lt h he).2.2, he⟩
  unfold nParents
  rw [this]; simp

theorem codeShare_eq (h : Network T) (h1 : SingleNests T) {n c : Nat} (he : (n, c) ∈ T.edges) :
    codeShare T θ (n, c) = lshare T A n c := by
  have hl : lshare T A n c = logalpha T (n, c) := (logalpha_eq h (n, c)).symm
  rw [hl]
  unfold codeShare
  by_cases ha : alpha T (n, c) = 1
  · rw [if_pos ha]; unfold logalpha; rw [ha, Real.log_one]
  · rw [if_neg ha]
    have hc : c < T.nAlts := by
      by_contra hh
      exact ha (alpha_single h h1 he (by omega))
    show muOf T θ c * _ = _
    unfold muOf; rw [if_pos hc, one_mul]

/-- The computed probability gradient is the derivative of the probability. -/
theorem run_dP_hasDeriv (h : NetworkCase T M θ C A x) (h1 : SingleNests T) (hold : Nat → Bool) (p : Nat) (hp : hold p = false)
    (hocc : occ M.q p ≤ 1) (hroot : T.muSlot (T.nNodes - 1 - T.nAlts) ≠ some p) (hsep : SeparateLogsums T M)
    (Q : Nat → Nat → ℝ) (hQr : ∀ p, Q (T.nNodes - 1) p = 0)
    (hQ : ∀ n, n + 1 < T.nNodes → (netOf T A).avail n → ∀ p, Q n p = ∑ q ∈ Finset.range T.nNodes, if (q, n) ∈ T.edges then
        (((rowsOf T M hold θ C n p).toReal - (rowsOf T M hold θ C q p).toReal + (if slotOf T hold q = some p then 1 else 0) *
          ((shVal T M θ C A x q - shVal T M θ C A x n) / muN T θ q - logalpha T (q, n) / muN T θ q)) *
          (netProb T M θ C A x q / muN T θ q) + Q q p) * kEdge T M θ C A x (q, n) else 0) :
    ∀ n < T.nNodes, (netOf T A).avail n →
      HasDerivAt (fun t => netProb T M (update θ p t) C A x n) (Q n p) (θ p) := by
  have hN := h.net
  have hmu0 : ∀ n, T.nAlts ≤ n → n < T.nNodes → muN T θ n ≠ 0 := fun n a b => ne_of_gt (h.mu n a b)
  obtain ⟨G, F, hrows, hval⟩ := dUPass_real (A := A) (θ := θ) (hold := hold) hN h1 (nlCase T M hold θ C).utility
    (shVal T M θ C A x) (kEdge T M θ C A x) (condLog T θ (nlCase T M hold θ C).utility)
    (Compiled.assemble θ hold T.nAlts M C).dU (d0Of T M hold θ C) hmu0
    (fun n hn ha => by rw [run_U h hold hn]; unfold emb; rw [if_pos ha]) (fun e he => run_k h hold he)
    (fun n p => d0Of_fin h hold n p)
  set s0 := shiftV T.nAlts A (utility M θ (coReal C) x) with hs0
  set u : ℝ → Nat → ℝ := fun t a => utility M (update θ p t) (coReal C) x a - s0 with hu
  set du : Nat → ℝ := fun a => sizeCoef M θ x a p + linCoef M (coReal C) x a p with hdu
  set dm : Nat → ℝ := fun n => if slotOf T hold n = some p then 1 else 0 with hdm
  set D : Nat → ℝ := fun n => if n = T.nNodes - 1 then G n p else F n p with hD
  have hu0 : u (θ p) = shifted T M θ C A x := by
    funext a; simp only [hu, update_eq_self]; rfl
  have hR : ∀ n < T.nNodes, (netOf T A).avail n → (rowsOf T M hold θ C n p).toReal = D n := by
    intro n hn ha
    have := hval n hn ha p
    unfold rowsOf
    rw [this]; rfl
  have hdalt : ∀ a < T.nAlts, A a = true → F a p = du a := by
    intro a ha hA
    rw [hrows.alt a ha, d0Of_alt h hold ha hA, codeCoef_eq hold _ _ a p hp hocc]
  -- rows below a nest with the parameter vanish
  have hzero : ∀ n, T.nAlts ≤ n → n < T.nNodes → slotOf T hold n = some p → ∀ c, Below T n c → (netOf T A).avail c → F c p = 0 := by
    intro n hn hlt hs
    obtain ⟨s1, s2⟩ := hsep n p hn hlt ((slotOf_free hp hn).mp hs)
    intro c
    induction c using Nat.strong_induction_on with
    | _ c ih =>
      intro hb ha
      by_cases hc : c < T.nAlts
      · rw [hdalt c hc ((net_avail_alt hc).mp ha)]
        exact notInUtility_coef s1 _ _ _
      · have hc' : T.nAlts ≤ c := by omega
        rw [hrows.own c hc', if_neg (fun hh => s2 c hc' hb ((slotOf_free hp hc').mp hh)),
          hrows.acc c hc' (net_avail_lt hN hc' ha)]
        apply Finset.sum_eq_zero
        intro d _
        split_ifs with he hh
        · exact absurd ((slotOf_free hp hc').mp hh) (s2 c hc' hb)
        · rw [ih d (edge_lt hN he.1).1 (hb.tail he.1) he.2]; ring
        · rfl
  have hkey := net_prob_hasDeriv (A := A) hN (fun t => muN T (update θ p t)) u dm du D (fun n => Q n p) (θ p)
    (by rw [update_eq_self]; exact hmu0)
    (fun n hn _ => by
      refine (muN_hasDeriv T θ p n).congr_deriv ?_
      simp only [hdm]
      by_cases hs : slotIs T n p
      · rw [if_pos hs, if_pos ((slotOf_free hp hn).mpr hs)]
      · rw [if_neg hs, if_neg (fun hh => hs ((slotOf_free hp hn).mp hh))])
    (fun a ha hA => (utility_hasDeriv M θ (coReal C) x a p (fun hq => h.sizes hq a ha hA)).sub_const s0)
    (fun a ha hA => by
      have := hN.root
      simp only [hD]
      rw [if_neg (by omega)]
      exact hdalt a ha hA)
    (fun n hn ha => by
      rw [update_eq_self, hu0]
      have hlt := net_avail_lt hN hn ha
      have hDc : ∀ c, (n, c) ∈ T.edges → D c = F c p := by
        intro c he
        have := edge_lt hN he
        simp only [hD]; rw [if_neg (by omega)]
      by_cases hs : slotOf T hold n = some p
      · have hnr : n ≠ T.nNodes - 1 := by
          intro hr
          apply hroot
          have := (slotOf_free hp hn).mp hs
          rwa [hr] at this
        simp only [hD, hdm]
        rw [if_neg hnr, if_pos hs, one_mul, hrows.own n hn, if_pos hs, hrows.acc n hn hlt]
        have e1 : ∑ c ∈ Finset.range T.nNodes, (if (n, c) ∈ T.edges ∧ (netOf T A).avail c then
            (netOf T A).cond (muN T θ) (shifted T M θ C A x) n c * (if c = T.nNodes - 1 then G c p else F c p) else 0) = 0 := by
          apply Finset.sum_eq_zero
          intro c _
          split_ifs with he hr
          · have := edge_lt hN he.1; omega
          · rw [hzero n hn hlt hs c (Relation.TransGen.single he.1) he.2, mul_zero]
          · rfl
        rw [e1, zero_add]
        congr 1
        rw [add_comm, sub_eq_add_neg, ← Finset.sum_neg_distrib]
        congr 1
        apply Finset.sum_congr rfl
        intro c _
        split_ifs with he
        · rw [hzero n hn hlt hs c (Relation.TransGen.single he.1) he.2, codeShare_eq (A := A) hN h1 he.1]
          simp only [kEdge, shVal]
          ring
        · ring
      · simp only [hdm]
        rw [if_neg hs, zero_mul, add_zero]
        have : D n = G n p := by
          simp only [hD]
          rw [hrows.own n hn, if_neg hs]; split_ifs <;> rfl
        rw [this, hrows.acc n hn hlt]
        apply Finset.sum_congr rfl
        intro c _
        split_ifs with he
        · rw [hDc c he.1, sub_zero]; rfl
        · rfl)
    (hQr p)
    (fun n hn ha => by
      rw [hQ n hn ha p]
      rw [update_eq_self, hu0]
      apply Finset.sum_congr rfl
      intro q _
      split_ifs with he hs
      · have hlt := edge_lt hN he
        rw [hR n (by omega) ha, hR q hlt.2.2 (net_avail_parent hN he ha)]
        simp only [hdm]
        rw [if_pos hs]
        have hpr : (netOf T A).prob (muN T θ) (shifted T M θ C A x) q = netProb T M θ C A x q :=
          net_shift_prob hN s0 hmu0 q hlt.2.2
        rw [hpr, logalpha_eq (A := A) hN]
        rfl
      · have hlt := edge_lt hN he
        rw [hR n (by omega) ha, hR q hlt.2.2 (net_avail_parent hN he ha)]
        simp only [hdm]
        rw [if_neg hs]
        have hpr : (netOf T A).prob (muN T θ) (shifted T M θ C A x) q = netProb T M θ C A x q :=
          net_shift_prob hN s0 hmu0 q hlt.2.2
        rw [hpr]
        simp only [zero_mul, add_zero]
        rfl
      · rfl)
  intro n hn ha
  refine (hkey n hn ha).congr_of_eventuallyEq ?_
  have hev : ∀ᶠ t in nhds (θ p), ∀ n ∈ Finset.range T.nNodes, T.nAlts ≤ n → 0 < muN T (update θ p t) n := by
    rw [Filter.eventually_all_finset]
    intro n hn
    by_cases hna : T.nAlts ≤ n
    · have hc := (muN_hasDeriv T θ p n).continuousAt
      have h0 : 0 < muN T (update θ p (θ p)) n := by
        rw [update_eq_self]; exact h.mu n hna (Finset.mem_range.mp hn)
      filter_upwards [hc.eventually (lt_mem_nhds h0)] with t ht _ using ht
    · filter_upwards with t h using absurd h hna
  filter_upwards [hev] with t ht
  unfold netProb
  exact (net_shift_prob hN s0 (fun n a b => ne_of_gt (ht n (Finset.mem_range.mpr b) a)) n hn).symm

theorem run_ll_hasDeriv (h : NetworkCase T M θ C A x) (h1 : SingleNests T) (hold : Nat → Bool) (p : Nat) (hp : hold p = false)
    (hocc : occ M.q p ≤ 1) (hroot : T.muSlot (T.nNodes - 1 - T.nAlts) ≠ some p) (hsep : SeparateLogsums T M)
    (hch : ∀ a < T.nAlts, C.ch a ≠ 0 → A a = true) :
    ∃ r, (nlCase T M hold θ C).dll p = .fin r ∧ HasDerivAt (fun t => netLoglike T M (update θ p t) C A x) r (θ p) := by
  obtain ⟨Q, q1, q2, q3⟩ := run_dP h hold
  refine ⟨_, (run_grad h hold hch Q q1).1 p, ?_⟩
  have hd := run_dP_hasDeriv h h1 hold p hp hocc hroot hsep Q q2 q3
  unfold netLoglike Net.loglike
  apply HasDerivAt.const_mul
  apply HasDerivAt.fun_sum
  intro a ha
  have ha' : a < T.nAlts := Finset.mem_range.mp ha
  by_cases hc : C.ch a = 0
  · simp only [hc, zero_mul]; exact hasDerivAt_const _ _
  · apply HasDerivAt.const_mul
    have hlt := lt_trans ha' h.net.root
    have hav := (net_avail_alt (T := T) (av := A) ha').mpr (hch a ha' hc)
    have hpos : 0 < netProb T M θ C A x a := net_prob_pos h.net a hlt hav
    have h2 := (hd a hlt hav).log (by rw [update_eq_self]; exact ne_of_gt hpos)
    rw [update_eq_self] at h2
    exact h2

/-- The standing conditions hold in a neighbourhood. -/
theorem networkCase_eventually (h : NetworkCase T M θ C A x) (p : Nat) :
    ∀ᶠ t in nhds (θ p), NetworkCase T M (update θ p t) C A x := by
  have h1 : ∀ᶠ t in nhds (θ p), ∀ n ∈ Finset.range T.nNodes, T.nAlts ≤ n → 0 < muN T (update θ p t) n := by
    rw [Filter.eventually_all_finset]
    intro n hn
    by_cases hna : T.nAlts ≤ n
    · have hc := (muN_hasDeriv T θ p n).continuousAt
      have h0 : 0 < muN T (update θ p (θ p)) n := by
        rw [update_eq_self]; exact h.mu n hna (Finset.mem_range.mp hn)
      filter_upwards [hc.eventually (lt_mem_nhds h0)] with t ht _ using ht
    · filter_upwards with t h using absurd h hna
  have h2 : ∀ᶠ t in nhds (θ p), ∀ a ∈ Finset.range T.nAlts, M.q ≠ [] → A a = true →
      0 < Spec.size (update θ p t) M.q (x a) := by
    rw [Filter.eventually_all_finset]
    intro a ha
    by_cases hq : M.q ≠ [] ∧ A a = true
    · have hc := (size_hasDeriv θ M.q (x a) p).continuousAt
      have h0 : 0 < Spec.size (update θ p (θ p)) M.q (x a) := by
        rw [update_eq_self]; exact h.sizes hq.1 a (Finset.mem_range.mp ha) hq.2
      filter_upwards [hc.eventually (lt_mem_nhds h0)] with t ht _ _ using ht
    · filter_upwards with t h1 h2 using absurd ⟨h1, h2⟩ hq
  filter_upwards [h1, h2] with t ht1 ht2
  exact ⟨h.net, fun n ha hn => ht1 n (Finset.mem_range.mpr hn) ha, h.offers,
    fun hq a ha haa => ht2 a (Finset.mem_range.mpr ha) hq haa⟩

/-- Held-fast parameters: every gradient entry is zero, on any network. -/
theorem run_held (h : NetworkCase T M θ C A x) (hold : Nat → Bool) (p : Nat) (hp : hold p = true) :
    ∀ n < T.nNodes, (netOf T A).avail n → (rowsOf T M hold θ C n p) = .fin 0 := by
  have hN := h.net
  have gen : ∀ (l : List (Nat × Nat)), (∀ e ∈ l, e ∈ T.edges) → ∀ D : Arr2,
      (∀ n < T.nNodes, (netOf T A).avail n → D n p = .fin 0) → ∀ n < T.nNodes, (netOf T A).avail n →
      l.foldl (dUStep T θ hold (nlCase T M hold θ C).utility (condLog T θ (nlCase T M hold θ C).utility)) D n p = .fin 0 := by
    intro l
    induction l with
    | nil => intro _ D hD; exact hD
    | cons e l ih =>
      intro hl D hD
      rw [List.foldl_cons]
      apply ih (fun y hy => hl y (List.mem_cons_of_mem _ hy))
      have he := hl e List.mem_cons_self
      have hlt := hN.edge e he
      have hk := run_k h hold he
      rw [dUStep_eq _ _ _ _ (by omega)]
      have hadj : ∀ n row, adj T θ hold (nlCase T M hold θ C).utility n row p = row p := by
        intro n row
        unfold adj
        rw [if_neg (fun hh => slotOf_held hp n hh.2)]
      by_cases ha : (netOf T A).avail e.2
      · rw [if_pos ha] at hk
        rw [if_pos hk.1]
        intro n hn hna
        by_cases hn1 : n = e.1
        · subst hn1
          rw [update_self]
          unfold accRow
          rw [if_pos hk.1]
          rw [if_neg (slotOf_held hp _), hadj, hk.2, hD _ hn hna, hD e.2 (by omega) ha, X.fin_mul, X.fin_add]
          congr 1; ring
        · rw [update_of_ne hn1]
          by_cases hn2 : n = e.2
          · subst hn2; rw [update_self, hadj]; exact hD _ hn hna
          · rw [update_of_ne hn2]; exact hD n hn hna
      · rw [if_neg ha] at hk
        rw [if_neg hk]; exact hD
  refine gen T.edges (fun e he => he) _ ?_
  intro n hn ha
  by_cases hna : T.nAlts ≤ n
  · rw [if_pos ⟨hna, hn⟩]; rfl
  · rw [if_neg (by omega), d0Of_fin h hold, d0Of_alt h hold (by omega) ((net_avail_alt (by omega)).mp ha),
      codeCoef_hold M θ (coReal C) x n hp]

theorem run_held_grad (h : NetworkCase T M θ C A x) (hold : Nat → Bool) (p : Nat) (hp : hold p = true)
    (hch : ∀ a < T.nAlts, C.ch a ≠ 0 → A a = true) : (nlCase T M hold θ C).dll p = .fin 0 := by
  obtain ⟨Q, q1, q2, q3⟩ := run_dP h hold
  rw [(run_grad h hold hch Q q1).1 p]
  have hz : ∀ n < T.nNodes, (netOf T A).avail n → Q n p = 0 := by
    refine net_down h.net (fun _ => q2 p) ?_
    intro n hn ih ha
    rw [q3 n hn ha p]
    apply Finset.sum_eq_zero
    intro q _
    split_ifs with he hs
    · exact absurd hs (slotOf_held hp _)
    · have hlt := edge_lt h.net he
      have hqa := net_avail_parent h.net he ha
      rw [run_held h hold p hp n (by omega) ha, run_held h hold p hp q hlt.2.2 hqa, ih q he hqa]
      simp
    · rfl
  have : ∑ a ∈ Finset.range T.nAlts, C.ch a * (Q a p / netProb T M θ C A x a) = 0 := by
    apply Finset.sum_eq_zero
    intro a ha
    have ha' := Finset.mem_range.mp ha
    by_cases hc : C.ch a = 0
    · rw [hc, zero_mul]
    · rw [hz a (lt_trans ha' h.net.root) ((net_avail_alt ha').mpr (hch a ha' hc))]; simp
  rw [this, mul_zero]

end

end Larch.Compiled
