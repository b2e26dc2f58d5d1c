import Verif.Lemmas.CompiledUtil
import Verif.Spec.Logit

namespace Larch.Compiled

open Function Larch Larch.Kernel Larch.Spec
open scoped BigOperators
open Classical

/-! ### The overflow guard -/

/-- real-valued running maximum -/
noncomputable def maxV (n : Nat) (A : Nat → Bool) (V : Nat → ℝ) : ℝ :=
  (List.range n).foldl (fun m j => if A j = true ∧ m < V j then V j else m) 0

/-- amount subtracted by the guard -/
noncomputable def shiftV (n : Nat) (A : Nat → Bool) (V : Nat → ℝ) : ℝ :=
  if 500 < maxV n A V then maxV n A V else 0

theorem maxU_eq {n : Nat} {A : Nat → Bool} {V : Nat → ℝ} {U : Arr} (hU : ∀ a < n, U a = emb (A a = true) (V a)) :
    maxU n U = .fin (maxV n A V) := by
  unfold maxU maxV
  have key : ∀ l : List Nat, (∀ a ∈ l, a < n) → ∀ m : ℝ,
      l.foldl (fun m j => if X.gt (U j) m then U j else m) (.fin m) =
        .fin (l.foldl (fun m j => if A j = true ∧ m < V j then V j else m) m) := by
    intro l
    induction l with
    | nil => intro _ m; rfl
    | cons a l ih =>
      intro hl m
      have ih' := ih (fun b hb => hl b (List.mem_cons_of_mem _ hb))
      rw [List.foldl_cons, List.foldl_cons, hU a (hl a List.mem_cons_self)]
      unfold emb
      by_cases hA : A a = true
      · by_cases hm : m < V a
        · simp only [hA, if_true, X.fin_gt_fin, hm, and_self]; exact ih' _
        · simp only [hA, if_true, X.fin_gt_fin, hm, and_false, if_false]; exact ih' _
      · simp only [hA, if_false, X.not_ninf_gt, false_and, Bool.false_eq_true]; exact ih' _
  exact key _ (fun a ha => List.mem_range.mp ha) 0

theorem maxV_spec (n : Nat) (A : Nat → Bool) (V : Nat → ℝ) :
    0 ≤ maxV n A V ∧ (∀ a < n, A a = true → V a ≤ maxV n A V) ∧
      (maxV n A V = 0 ∨ ∃ a < n, A a = true ∧ maxV n A V = V a) := by
  unfold maxV
  induction n with
  | zero => simp
  | succ n ih =>
    rw [List.range_succ, List.foldl_append, List.foldl_cons, List.foldl_nil]
    set m := (List.range n).foldl (fun m j => if A j = true ∧ m < V j then V j else m) 0
    obtain ⟨h1, h2, h3⟩ := ih
    by_cases hc : A n = true ∧ m < V n
    · rw [if_pos hc]
      refine ⟨by linarith [hc.2], fun a ha hA => ?_, Or.inr ⟨n, by omega, hc.1, rfl⟩⟩
      by_cases han : a = n
      · rw [han]
      · exact le_trans (h2 a (by omega) hA) hc.2.le
    · rw [if_neg hc]
      refine ⟨h1, fun a ha hA => ?_, ?_⟩
      · by_cases han : a = n
        · subst han; push Not at hc; exact hc hA
        · exact h2 a (by omega) hA
      · rcases h3 with h3 | ⟨a, ha, hA, h3⟩
        · exact Or.inl h3
        · exact Or.inr ⟨a, by omega, hA, h3⟩

theorem foldl_sub (c : X) (l : List Nat) (hnd : l.Nodup) : ∀ (U : Arr) (i : Nat),
    l.foldl (fun V j => update V j (V j - c)) U i = if i ∈ l then U i - c else U i := by
  induction l with
  | nil => intro U i; simp
  | cons a l ih =>
    intro U i
    rw [List.foldl_cons, ih (List.nodup_cons.mp hnd).2]
    have hna := (List.nodup_cons.mp hnd).1
    by_cases hia : i = a
    · subst hia; simp [hna]
    · simp [hia]

theorem guardU_eq {n : Nat} {A : Nat → Bool} {V : Nat → ℝ} {U : Arr} (hU : ∀ a < n, U a = emb (A a = true) (V a)) :
    (∀ a < n, guardU n U a = emb (A a = true) (V a - shiftV n A V)) ∧ ∀ i, n ≤ i → guardU n U i = U i := by
  unfold guardU
  rw [maxU_eq hU]
  unfold shiftV
  by_cases h : 500 < maxV n A V
  · rw [if_pos ((X.fin_gt_fin _ _).mpr h)]
    refine ⟨fun a ha => ?_, fun i hi => ?_⟩
    · rw [foldl_sub _ _ List.nodup_range, if_pos (List.mem_range.mpr ha), hU a ha, if_pos h]
      unfold emb
      by_cases hA : A a = true
      · simp only [hA, if_true, X.fin_sub]
      · simp only [hA, if_false]; rfl
    · rw [foldl_sub _ _ List.nodup_range, if_neg (by simpa using hi)]
  · rw [if_neg (fun hh => h ((X.fin_gt_fin _ _).mp hh)), if_neg h]
    exact ⟨fun a ha => by rw [hU a ha, sub_zero], fun i _ => rfl⟩

theorem assemble_real {nAlts : Nat} {M : Terms} {θ : Nat → ℝ} {C : Case} {A : Nat → Bool} {x : Nat → Nat → ℝ}
    (h : Offers nAlts M C A x) (hS : Sizes nAlts M θ A x) (hold : Nat → Bool) :
    (∀ a < nAlts, (assemble θ hold nAlts M C).U a = emb (A a = true)
      (utility M θ (coReal C) x a - shiftV nAlts A (utility M θ (coReal C) x))) ∧
    (∀ n, nAlts ≤ n → (assemble θ hold nAlts M C).U n = .fin 0) ∧
    (∀ a < nAlts, A a = true → ∀ p, (assemble θ hold nAlts M C).dU a p = .fin (codeCoef hold M θ (coReal C) x a p)) ∧
    (∀ n p, ∃ r, (assemble θ hold nAlts M C).dU n p = .fin r) := by
  obtain ⟨h1, h2, h3, h4⟩ := raw_real h hS hold
  obtain ⟨g1, g2⟩ := guardU_eq (V := utility M θ (coReal C) x) h1
  exact ⟨g1, fun n hn => (g2 n hn).trans (h2 n hn), h3, h4⟩

/-! ### Probabilities -/

theorem expSum_pos {n : Nat} {A : Nat → Bool} (V : Nat → ℝ) (h : ∃ a < n, A a = true) : 0 < expSum n A V := by
  obtain ⟨a, ha, hA⟩ := h
  unfold expSum
  refine lt_of_lt_of_le (Real.exp_pos (V a)) ?_
  have := Finset.single_le_sum (f := fun b => if A b = true then Real.exp (V b) else 0)
    (fun b _ => by split_ifs <;> positivity) (Finset.mem_range.mpr ha)
  simpa [hA] using this

theorem expSum_none {n : Nat} {A : Nat → Bool} (V : Nat → ℝ) (h : ∀ a < n, A a = false) : expSum n A V = 0 := by
  unfold expSum
  apply Finset.sum_eq_zero
  intro b hb
  simp [h b (Finset.mem_range.mp hb)]

theorem expSum_shift (n : Nat) (A : Nat → Bool) (V : Nat → ℝ) (s : ℝ) :
    expSum n A (fun a => V a - s) = Real.exp (-s) * expSum n A V := by
  unfold expSum
  rw [Finset.mul_sum]
  apply Finset.sum_congr rfl
  intro b _
  split_ifs
  · rw [← Real.exp_add]; ring_nf
  · ring

theorem logitProb_shift (n : Nat) (A : Nat → Bool) (V : Nat → ℝ) (s : ℝ) (a : Nat) :
    logitProb n A (fun a => V a - s) a = logitProb n A V a := by
  unfold logitProb
  rw [expSum_shift]
  by_cases hA : A a = true
  · simp only [if_pos hA]
    rw [show V a - s = -s + V a by ring, Real.exp_add,
      mul_div_mul_left _ _ (ne_of_gt (Real.exp_pos _))]
  · rw [if_neg hA, if_neg hA]

theorem sum_fold_gen (n : Nat) (f : Nat → ℝ) (g : X → Nat → X) (hg : ∀ a < n, ∀ s : ℝ, g (.fin s) a = .fin (s + f a)) :
    (List.range n).foldl g 0 = .fin (∑ a ∈ Finset.range n, f a) := by
  induction n with
  | zero => rfl
  | succ n ih =>
    rw [List.range_succ, List.foldl_append, List.foldl_cons, List.foldl_nil, ih (fun a ha => hg a (by omega)),
      hg n (by omega), Finset.sum_range_succ]

theorem tiny_le {n : Nat} {A : Nat → Bool} {V : Nat → ℝ} (hm : Moderate n A V) {a : Nat} (ha : a < n) (hA : A a = true) :
    tiny < V a - shiftV n A V ∧ ¬ X.gt (.fin tiny) (.fin (V a - shiftV n A V)) := by
  obtain ⟨h1, h2, h3⟩ := maxV_spec n A V
  have hmx : maxV n A V ≤ 10 ^ 38 := by
    rcases h3 with h3 | ⟨b, hb, hB, h3⟩
    · rw [h3]; positivity
    · rw [h3]; exact le_trans (le_abs_self _) (hm b hb hB).le
  have hs : shiftV n A V ≤ 10 ^ 38 := by
    unfold shiftV; split_ifs
    · exact hmx
    · positivity
  have hv : -(10 ^ 38) ≤ V a := neg_le_of_abs_le (hm a ha hA).le
  have : tiny < V a - shiftV n A V := by
    unfold tiny; norm_num at *; linarith
  exact ⟨this, fun hh => absurd ((X.fin_gt_fin _ _).mp hh) (not_lt.mpr this.le)⟩

/-- `U` represents utilities `V` of the offered alternatives, none below the threshold. -/
structure Rep (n : Nat) (A : Nat → Bool) (V : Nat → ℝ) (U : Arr) : Prop where
  val : ∀ a < n, U a = emb (A a = true) (V a)
  big : ∀ a < n, A a = true → tiny < V a

theorem gt_tiny_ninf : X.gt (.fin tiny) .ninf := X.fin_gt_ninf _

theorem Rep.sumExp {n : Nat} {A : Nat → Bool} {V : Nat → ℝ} {U : Arr} (h : Rep n A V U) :
    sumExpU n U = .fin (expSum n A V) := by
  unfold sumExpU expSum
  apply sum_fold_gen
  intro a ha s
  rw [h.val a ha]
  unfold emb
  by_cases hA : A a = true
  · have : ¬ X.gt (.fin tiny) (.fin (V a)) := fun hh => absurd ((X.fin_gt_fin _ _).mp hh) (not_lt.mpr (h.big a ha hA).le)
    simp only [hA, if_true, if_neg this, X.exp_fin, X.fin_add]
  · simp only [hA, if_false, gt_tiny_ninf, if_true, Bool.false_eq_true, add_zero]

theorem Rep.prob {n : Nat} {A : Nat → Bool} {V : Nat → ℝ} {U : Arr} (h : Rep n A V U) (ho : ∃ a < n, A a = true) {a : Nat}
    (ha : a < n) : mnlProb n U a = .fin (logitProb n A V a) := by
  have hp := expSum_pos V ho
  unfold mnlProb expU logitProb
  rw [h.sumExp, if_neg (show ¬ X.fin (expSum n A V) = 0 from fun hh => ne_of_gt hp (X.fin_inj.mp hh)), h.val a ha]
  unfold emb
  by_cases hA : A a = true
  · have : ¬ X.gt (.fin tiny) (.fin (V a)) := fun hh => absurd ((X.fin_gt_fin _ _).mp hh) (not_lt.mpr (h.big a ha hA).le)
    simp only [hA, if_true, if_neg this, X.exp_fin]
    exact X.fin_div (ne_of_gt hp)
  · simp only [hA, if_false, gt_tiny_ninf, if_true, Bool.false_eq_true]
    rw [X.zero_def, X.fin_div (ne_of_gt hp), zero_div]

theorem logitProb_sum {n : Nat} {A : Nat → Bool} (V : Nat → ℝ) (ho : ∃ a < n, A a = true) :
    ∑ a ∈ Finset.range n, logitProb n A V a = 1 := by
  have hp := expSum_pos V ho
  have : ∀ a, logitProb n A V a = (if A a = true then Real.exp (V a) else 0) / expSum n A V := by
    intro a; unfold logitProb; split_ifs
    · rfl
    · rw [zero_div]
  simp only [this]
  rw [← Finset.sum_div]
  exact div_self (ne_of_gt hp)

theorem logitProb_pos {n : Nat} {A : Nat → Bool} (V : Nat → ℝ) {a : Nat} (ha : a < n) (hA : A a = true) :
    0 < logitProb n A V a := by
  unfold logitProb
  rw [if_pos hA]
  exact div_pos (Real.exp_pos _) (expSum_pos V ⟨a, ha, hA⟩)

/-- Log likelihood over arbitrary positive probabilities of chosen alternatives. -/
theorem caseLL_real (n : Nat) (P : Arr) (ch Pr : Nat → ℝ) (hP : ∀ a < n, ch a ≠ 0 → P a = .fin (Pr a) ∧ 0 < Pr a) :
    caseLL n P ch = .fin (∑ a ∈ Finset.range n, ch a * Real.log (Pr a)) := by
  unfold caseLL
  apply sum_fold_gen
  intro a ha s
  by_cases hc : ch a = 0
  · simp [hc]
  · obtain ⟨h1, h2⟩ := hP a ha hc
    rw [if_pos hc, h1, X.log_fin h2, X.fin_mul, X.fin_add, mul_comm]

/-! ### Gradient -/

theorem mnlInner_real (n a : Nat) (c : ℝ) (P : Arr) (dU : Arr2) (Pr : Nat → ℝ) (D : Nat → Nat → ℝ) (d : Nat → ℝ) (A : Nat → Bool)
    (hP : ∀ i < n, P i = .fin (Pr i)) (hD : ∀ i < n, A i = true → ∀ v, dU i v = .fin (D i v))
    (h0 : ∀ i < n, A i = false → Pr i = 0) (ha : A a = true) :
    ∀ v, (mnlInner n a c P dU (fun v => .fin (d v))).1 v =
        .fin (∑ i ∈ Finset.range n, if A i = true then D i v * ((if i = a then 1 else 0) - Pr i) else 0) ∧
      (mnlInner n a c P dU (fun v => .fin (d v))).2 v =
        .fin (d v + c * ∑ i ∈ Finset.range n, if A i = true then D i v * ((if i = a then 1 else 0) - Pr i) else 0) := by
  unfold mnlInner
  have key : ∀ m ≤ n, ∀ v,
      ((List.range m).foldl (fun (st : Arr × Arr) i =>
        let t := (if i = a then (1 : X) else 0) - P i
        if t = 0 then st else (fun v => st.1 v + dU i v * t, fun v => st.2 v + dU i v * t * .fin c))
        ((fun _ => 0, fun v => .fin (d v)) : Arr × Arr)).1 v =
        .fin (∑ i ∈ Finset.range m, if A i = true then D i v * ((if i = a then 1 else 0) - Pr i) else 0) ∧
      ((List.range m).foldl (fun (st : Arr × Arr) i =>
        let t := (if i = a then (1 : X) else 0) - P i
        if t = 0 then st else (fun v => st.1 v + dU i v * t, fun v => st.2 v + dU i v * t * .fin c))
        ((fun _ => 0, fun v => .fin (d v)) : Arr × Arr)).2 v =
        .fin (d v + c * ∑ i ∈ Finset.range m, if A i = true then D i v * ((if i = a then 1 else 0) - Pr i) else 0) := by
    intro m
    induction m with
    | zero => intro _ v; simp; rfl
    | succ m ih =>
      intro hm v
      obtain ⟨i1, i2⟩ := ih (by omega) v
      rw [List.range_succ, List.foldl_append, List.foldl_cons, List.foldl_nil]
      have ht : (if m = a then (1 : X) else 0) - P m = .fin ((if m = a then 1 else 0) - Pr m) := by
        rw [hP m (by omega)]
        by_cases hma : m = a
        · rw [if_pos hma, if_pos hma]; exact X.fin_sub 1 _
        · rw [if_neg hma, if_neg hma]; exact X.fin_sub 0 _
      simp only [Finset.sum_range_succ]
      simp only [ht]
      by_cases hz : ((if m = a then 1 else 0) - Pr m : ℝ) = 0
      · rw [if_pos (show X.fin ((if m = a then 1 else 0) - Pr m) = 0 by rw [hz]; rfl), hz]
        simp only [mul_zero, ite_self, add_zero]
        exact ⟨i1, i2⟩
      · rw [if_neg (show ¬ X.fin ((if m = a then 1 else 0) - Pr m) = 0 from fun hh => hz (X.fin_inj.mp hh))]
        have hAm : A m = true := by
          by_contra hA
          have hA' : A m = false := by simpa using hA
          apply hz
          rw [h0 m (by omega) hA', if_neg (fun hh => hA (by rw [hh]; exact ha)), sub_zero]
        simp only
        rw [i1, i2, hD m (by omega) hAm v, X.fin_mul, X.fin_mul, X.fin_add, X.fin_add, if_pos hAm]
        exact ⟨rfl, by congr 1; ring⟩
  exact key n le_rfl

/-- one chosen alternative -/
noncomputable def gradStep (n : Nat) (ch : Nat → ℝ) (wt : ℝ) (P : Arr) (dU : Arr2) (gr : Grad) (a : Nat) : Grad :=
  if ch a * wt = 0 then gr
  else { dll := (mnlInner n a (ch a * wt) P dU gr.dll).2
         bhhh := fun v v2 => gr.bhhh v v2 + (mnlInner n a (ch a * wt) P dU gr.dll).1 v *
           (mnlInner n a (ch a * wt) P dU gr.dll).1 v2 * .fin (ch a * wt) }

theorem mnlGrad_real (n : Nat) (ch : Nat → ℝ) (wt : ℝ) (P : Arr) (dU : Arr2) (Pr : Nat → ℝ) (D : Nat → Nat → ℝ) (A : Nat → Bool)
    (hP : ∀ i < n, P i = .fin (Pr i)) (hD : ∀ i < n, A i = true → ∀ v, dU i v = .fin (D i v))
    (h0 : ∀ i < n, A i = false → Pr i = 0) (hch : ∀ a < n, ch a ≠ 0 → A a = true) :
    let g := fun a v => ∑ i ∈ Finset.range n, if A i = true then D i v * ((if i = a then 1 else 0) - Pr i) else (0 : ℝ)
    (∀ v, (mnlGrad n ch wt P dU).dll v = .fin (wt * ∑ a ∈ Finset.range n, ch a * g a v)) ∧
    (∀ v w, (mnlGrad n ch wt P dU).bhhh v w = .fin (wt * ∑ a ∈ Finset.range n, ch a * (g a v * g a w))) := by
  intro g
  unfold mnlGrad
  by_cases hw : wt = 0
  · simp only [hw, if_true, zero_mul]; exact ⟨fun _ => rfl, fun _ _ => rfl⟩
  rw [if_neg hw]
  have key : ∀ m ≤ n,
      (∀ v, ((List.range m).foldl (gradStep n ch wt P dU) ⟨fun _ => 0, fun _ _ => 0⟩).dll v =
        .fin (wt * ∑ a ∈ Finset.range m, ch a * g a v)) ∧
      (∀ v w, ((List.range m).foldl (gradStep n ch wt P dU) ⟨fun _ => 0, fun _ _ => 0⟩).bhhh v w =
        .fin (wt * ∑ a ∈ Finset.range m, ch a * (g a v * g a w))) := by
    intro m
    induction m with
    | zero => intro _; simp; rfl
    | succ m ih =>
      intro hm
      obtain ⟨i1, i2⟩ := ih (by omega)
      rw [List.range_succ, List.foldl_append, List.foldl_cons, List.foldl_nil]
      simp only [Finset.sum_range_succ]
      unfold gradStep at i1 i2 ⊢
      by_cases hc : ch m = 0
      · simp only [hc, zero_mul, if_true, add_zero]; exact ⟨i1, i2⟩
      · rw [if_neg (mul_ne_zero hc hw)]
        have hdl : ∀ (r : Grad), (∀ v, r.dll v = .fin (wt * ∑ a ∈ Finset.range m, ch a * g a v)) →
            r.dll = fun v => .fin (wt * ∑ a ∈ Finset.range m, ch a * g a v) := fun r hr => funext hr
        rw [hdl _ i1]
        have hin := mnlInner_real n m (ch m * wt) P dU Pr D (fun v => wt * ∑ a ∈ Finset.range m, ch a * g a v) A hP hD h0
          (hch m (by omega) hc)
        constructor
        · intro v
          simp only
          rw [(hin v).2]; congr 1; ring
        · intro v w
          simp only
          rw [i2 v w, (hin v).1, (hin w).1, X.fin_mul, X.fin_mul, X.fin_add]
          congr 1; ring
  exact key n le_rfl

/-! ### Derivative -/

theorem expSum_hasDeriv (n : Nat) (A : Nat → Bool) (V : ℝ → Nat → ℝ) (D : Nat → ℝ) (t0 : ℝ)
    (hV : ∀ a < n, A a = true → HasDerivAt (fun t => V t a) (D a) t0) :
    HasDerivAt (fun t => expSum n A (V t)) (∑ b ∈ Finset.range n, if A b = true then Real.exp (V t0 b) * D b else 0) t0 := by
  unfold expSum
  apply HasDerivAt.fun_sum
  intro b hb
  by_cases hA : A b = true
  · simp only [hA, if_true]; exact (hV b (Finset.mem_range.mp hb) hA).exp
  · simp only [hA, if_false, Bool.false_eq_true]; exact hasDerivAt_const _ _

theorem log_logit_hasDeriv (n : Nat) (A : Nat → Bool) (V : ℝ → Nat → ℝ) (D : Nat → ℝ) (t0 : ℝ)
    (hV : ∀ a < n, A a = true → HasDerivAt (fun t => V t a) (D a) t0) {a : Nat} (ha : a < n) (hA : A a = true) :
    HasDerivAt (fun t => Real.log (logitProb n A (V t) a))
      (∑ i ∈ Finset.range n, if A i = true then D i * ((if i = a then 1 else 0) - logitProb n A (V t0) i) else 0) t0 := by
  have hpos := fun t => expSum_pos (n := n) (A := A) (V t) ⟨a, ha, hA⟩
  have e : (fun t => Real.log (logitProb n A (V t) a)) = fun t => V t a - Real.log (expSum n A (V t)) := by
    funext t
    unfold logitProb
    rw [if_pos hA, Real.log_div (ne_of_gt (Real.exp_pos _)) (ne_of_gt (hpos t)), Real.log_exp]
  rw [e]
  have h := (hV a ha hA).fun_sub ((expSum_hasDeriv n A V D t0 hV).log (ne_of_gt (hpos t0)))
  refine h.congr_deriv ?_
  have e1 : ∑ i ∈ Finset.range n, (if A i = true then D i * ((if i = a then 1 else 0) - logitProb n A (V t0) i) else 0) =
      ∑ i ∈ Finset.range n, ((if i = a then D i else 0) - (if A i = true then Real.exp (V t0 i) * D i else 0) / expSum n A (V t0)) := by
    apply Finset.sum_congr rfl
    intro i _
    unfold logitProb
    by_cases hi : A i = true
    · by_cases hia : i = a
      · simp only [hi, hia, hA, if_true]; ring
      · simp only [hi, hia, if_true, if_false]; ring
    · have : i ≠ a := fun hh => hi (hh ▸ hA)
      simp [hi, this]
  rw [e1, Finset.sum_sub_distrib, ← Finset.sum_div, Finset.sum_ite_eq' , if_pos (Finset.mem_range.mpr ha)]

theorem logitLL_hasDeriv (n : Nat) (A : Nat → Bool) (V : ℝ → Nat → ℝ) (D : Nat → ℝ) (t0 : ℝ) (ch : Nat → ℝ) (wt : ℝ)
    (hV : ∀ a < n, A a = true → HasDerivAt (fun t => V t a) (D a) t0) (hch : ∀ a < n, ch a ≠ 0 → A a = true) :
    HasDerivAt (fun t => logitLL n A (V t) ch wt)
      (wt * ∑ a ∈ Finset.range n, ch a *
        ∑ i ∈ Finset.range n, if A i = true then D i * ((if i = a then 1 else 0) - logitProb n A (V t0) i) else 0) t0 := by
  unfold logitLL
  apply HasDerivAt.const_mul
  apply HasDerivAt.fun_sum
  intro a ha
  have ha' := Finset.mem_range.mp ha
  by_cases hc : ch a = 0
  · simp only [hc, zero_mul]; exact hasDerivAt_const _ _
  · exact (log_logit_hasDeriv n A V D t0 hV ha' (hch a ha' hc)).const_mul _


/-! ### One case -/

section case

variable {n : Nat} {M : Terms} {θ : Nat → ℝ} {C : Case} {A : Nat → Bool} {x : Nat → Nat → ℝ}

theorem LogitCase.rep (h : LogitCase n M θ C A x) (hold : Nat → Bool) :
    Rep n A (fun a => utility M θ (coReal C) x a - shiftV n A (utility M θ (coReal C) x)) (assemble θ hold n M C).U :=
  ⟨(assemble_real h.offers h.size hold).1, fun _ ha hA => (tiny_le h.moderate ha hA).1⟩

theorem LogitCase.prob (h : LogitCase n M θ C A x) (hold : Nat → Bool) (ho : ∃ a < n, A a = true) {a : Nat} (ha : a < n) :
    mnlProb n (assemble θ hold n M C).U a = .fin (logitProb n A (utility M θ (coReal C) x) a) := by
  rw [(LogitCase.rep h hold).prob ho ha]
  congr 1
  exact logitProb_shift n A (utility M θ (coReal C) x) _ a

theorem LogitCase.ll (h : LogitCase n M θ C A x) (hold : Nat → Bool) (hch : ∀ a < n, C.ch a ≠ 0 → A a = true) :
    (mnlCase n M hold θ C).ll = .fin (logitLL n A (utility M θ (coReal C) x) C.ch C.wt) := by
  unfold mnlCase
  simp only
  rw [caseLL_real n _ C.ch (logitProb n A (utility M θ (coReal C) x)), X.fin_mul]
  · unfold logitLL; rw [mul_comm]
  · intro a ha hc
    have hA := hch a ha hc
    exact ⟨LogitCase.prob h hold ⟨a, ha, hA⟩ ha, logitProb_pos _ ha hA⟩

/-- The score of alternative `a` computed by the code. -/
noncomputable def codeScore (n : Nat) (M : Terms) (hold : Nat → Bool) (θ : Nat → ℝ) (C : Case) (A : Nat → Bool)
    (x : Nat → Nat → ℝ) (a v : Nat) : ℝ :=
  ∑ i ∈ Finset.range n, if A i = true then codeCoef hold M θ (coReal C) x i v *
    ((if i = a then 1 else 0) - logitProb n A (utility M θ (coReal C) x) i) else 0

theorem LogitCase.grad (h : LogitCase n M θ C A x) (hold : Nat → Bool) (ho : ∃ a < n, A a = true)
    (hch : ∀ a < n, C.ch a ≠ 0 → A a = true) :
    (∀ v, (mnlCase n M hold θ C).dll v = .fin (C.wt * ∑ a ∈ Finset.range n, C.ch a * codeScore n M hold θ C A x a v)) ∧
    (∀ v w, (mnlCase n M hold θ C).bhhh v w =
      .fin (C.wt * ∑ a ∈ Finset.range n, C.ch a * (codeScore n M hold θ C A x a v * codeScore n M hold θ C A x a w))) :=
  mnlGrad_real n C.ch C.wt _ _ (logitProb n A (utility M θ (coReal C) x)) (codeCoef hold M θ (coReal C) x) A
    (fun _ ha => LogitCase.prob h hold ho ha) (fun a ha hA => (assemble_real h.offers h.size hold).2.2.1 a ha hA)
    (fun a _ hA => by unfold logitProb; simp [hA]) hch

theorem score_hasDeriv (h : LogitCase n M θ C A x) (hold : Nat → Bool) (p : Nat) (hp : hold p = false) (hq : occ M.q p ≤ 1)
    {a : Nat} (ha : a < n) (hA : A a = true) :
    HasDerivAt (fun t => Real.log (logitProb n A (utility M (update θ p t) (coReal C) x) a))
      (codeScore n M hold θ C A x a p) (θ p) := by
  have := log_logit_hasDeriv n A (fun t => utility M (update θ p t) (coReal C) x)
    (fun i => codeCoef hold M θ (coReal C) x i p) (θ p)
    (fun b hb hB => by
      rw [codeCoef_eq hold _ _ b p hp hq]
      exact utility_hasDeriv M θ (coReal C) x b p (fun hq' => h.size hq' b hb hB)) ha hA
  rw [update_eq_self] at this
  exact this

theorem logitCase_eventually (h : LogitCase n M θ C A x) (p : Nat) :
    ∀ᶠ t in nhds (θ p), LogitCase n M (update θ p t) C A x := by
  have h2 : ∀ᶠ t in nhds (θ p), ∀ a ∈ Finset.range n, M.q ≠ [] → A a = true →
      0 < Spec.size (update θ p t) M.q (x a) := by
    rw [Filter.eventually_all_finset]
    intro a ha
    by_cases hq : M.q ≠ [] ∧ A a = true
    · have hc := (size_hasDeriv θ M.q (x a) p).continuousAt
      have h0 : 0 < Spec.size (update θ p (θ p)) M.q (x a) := by
        rw [update_eq_self]; exact h.size hq.1 a (Finset.mem_range.mp ha) hq.2
      filter_upwards [hc.eventually (lt_mem_nhds h0)] with t ht _ _ using ht
    · filter_upwards with t h1 h2 using absurd ⟨h1, h2⟩ hq
  have h3 : ∀ᶠ t in nhds (θ p), ∀ a ∈ Finset.range n, A a = true → |utility M (update θ p t) (coReal C) x a| < 10 ^ 38 := by
    rw [Filter.eventually_all_finset]
    intro a ha
    by_cases hA : A a = true
    · have ha' := Finset.mem_range.mp ha
      have hc := ((utility_hasDeriv M θ (coReal C) x a p (fun hq => h.size hq a ha' hA)).continuousAt).abs
      have h0 : |utility M (update θ p (θ p)) (coReal C) x a| < 10 ^ 38 := by
        rw [update_eq_self]; exact h.moderate a ha' hA
      filter_upwards [hc.eventually (gt_mem_nhds h0)] with t ht _ using ht
    · filter_upwards with t h1 using absurd h1 hA
  filter_upwards [h2, h3] with t h2 h3
  exact ⟨h.offers, fun hq a ha hA => h2 a (Finset.mem_range.mpr ha) hq hA, fun a ha hA => h3 a (Finset.mem_range.mpr ha) hA⟩

theorem offers_of_dense {T : Tree} (h : DenseCase T M θ C) : Offers T.nAlts M C C.av (caReal C) ∧ Sizes T.nAlts M θ C.av (caReal C) := by
  refine ⟨⟨fun _ a ha => ⟨rfl, fun hA t ht => ?_⟩, fun rows hr => ?_, fun t ht => ⟨h.co t ht, fun hv d hd => ?_⟩⟩, h.size⟩
  · obtain ⟨r, hr⟩ := h.data.ca a ha hA t ht
    unfold caReal; rw [hr]; rfl
  · rw [h.dense] at hr; cases hr
  · exact h.data.co t ht (h.co t ht) hv d hd

end case

end Larch.Compiled
