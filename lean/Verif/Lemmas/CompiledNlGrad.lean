import Verif.Lemmas.CompiledNl

/-! Gradients of the compiled nested/network logit kernel. -/

namespace Larch.Compiled

open Function Larch Larch.Kernel Larch.Spec
open scoped BigOperators
open Classical

section deriv

variable {T : Tree} {A : Nat → Bool}

/-- log share of `c` in `n` -/
noncomputable def lshare (T : Tree) (A : Nat → Bool) (n c : Nat) : ℝ := Real.log ((netOf T A).share n c)

theorem net_denom_hasDeriv (h : Network T) (m u : ℝ → Nat → ℝ) (dm D : Nat → ℝ) (t0 : ℝ) {n : Nat} (hn : T.nAlts ≤ n)
    (ha : (netOf T A).avail n) (hm0 : m t0 n ≠ 0) (hm : HasDerivAt (fun t => m t n) (dm n) t0)
    (hV : ∀ c, (n, c) ∈ T.edges → (netOf T A).avail c → HasDerivAt (fun t => (netOf T A).value (m t) (u t) c) (D c) t0) :
    HasDerivAt (fun t => (netOf T A).denom (m t) (u t) n)
      ((netOf T A).denom (m t0) (u t0) n * ∑ c ∈ Finset.range T.nNodes, if (n, c) ∈ T.edges ∧ (netOf T A).avail c then
        (netOf T A).cond (m t0) (u t0) n c *
          (D c / m t0 n - (lshare T A n c + (netOf T A).value (m t0) (u t0) c) * dm n / m t0 n ^ 2) else 0) t0 := by
  have hd := net_denom_pos (mu := m t0) (u := u t0) h hn ha
  simp only [net_denom h]
  rw [← net_denom h, Finset.mul_sum]
  apply HasDerivAt.fun_sum
  intro c _
  by_cases hc : (n, c) ∈ T.edges ∧ (netOf T A).avail c
  · simp only [hc, and_self, if_true]
    have h1 := ((((hV c hc.1 hc.2).const_add (lshare T A n c)).fun_div hm hm0)).exp
    refine h1.congr_deriv ?_
    rw [net_cond]
    have e : Real.exp ((lshare T A n c + (netOf T A).value (m t0) (u t0) c) / m t0 n) = term T A (m t0) (u t0) n c := rfl
    rw [e]
    field_simp
  · simp only [hc, if_false, mul_zero]
    exact hasDerivAt_const _ _

theorem net_value_hasDeriv (h : Network T) (m u : ℝ → Nat → ℝ) (dm du D : Nat → ℝ) (t0 : ℝ)
    (hm0 : ∀ n, T.nAlts ≤ n → n < T.nNodes → m t0 n ≠ 0)
    (hm : ∀ n, T.nAlts ≤ n → n < T.nNodes → HasDerivAt (fun t => m t n) (dm n) t0)
    (hu : ∀ a < T.nAlts, A a = true → HasDerivAt (fun t => u t a) (du a) t0)
    (hDa : ∀ a < T.nAlts, A a = true → D a = du a)
    (hDn : ∀ n, T.nAlts ≤ n → (netOf T A).avail n → D n =
      ∑ c ∈ Finset.range T.nNodes, (if (n, c) ∈ T.edges ∧ (netOf T A).avail c then
        (netOf T A).cond (m t0) (u t0) n c * D c else 0) +
      dm n * (((netOf T A).value (m t0) (u t0) n - ∑ c ∈ Finset.range T.nNodes,
        if (n, c) ∈ T.edges ∧ (netOf T A).avail c then (netOf T A).cond (m t0) (u t0) n c *
          (lshare T A n c + (netOf T A).value (m t0) (u t0) c) else 0) / m t0 n)) :
    ∀ n, (netOf T A).avail n → HasDerivAt (fun t => (netOf T A).value (m t) (u t) n) (D n) t0 := by
  intro n
  induction n using Nat.strong_induction_on with
  | _ n ih =>
    intro ha
    by_cases hn : n < T.nAlts
    · simp only [net_value_alt hn]
      have hA := (net_avail_alt hn).mp ha
      rw [hDa n hn hA]
      exact hu n hn hA
    · have hn' : T.nAlts ≤ n := by omega
      have hlt := net_avail_lt h hn' ha
      have hm1 := hm0 n hn' hlt
      have hdp := net_denom_pos (mu := m t0) (u := u t0) h hn' ha
      have hd := net_denom_hasDeriv h m u dm D t0 hn' ha hm1 (hm n hn' hlt)
        (fun c hc hca => ih c (edge_lt h hc).1 hca)
      simp only [net_value_nest hn']
      refine ((hm n hn' hlt).mul (hd.log (ne_of_gt hdp))).congr_deriv ?_
      rw [hDn n hn' ha, net_value_nest hn', mul_div_cancel_left₀ _ (ne_of_gt hdp)]
      set L := Real.log ((netOf T A).denom (m t0) (u t0) n) with hL
      have e1 : ∑ c ∈ Finset.range T.nNodes, (if (n, c) ∈ T.edges ∧ (netOf T A).avail c then
        (netOf T A).cond (m t0) (u t0) n c *
          (D c / m t0 n - (lshare T A n c + (netOf T A).value (m t0) (u t0) c) * dm n / m t0 n ^ 2) else 0) =
          (∑ c ∈ Finset.range T.nNodes, (if (n, c) ∈ T.edges ∧ (netOf T A).avail c then
            (netOf T A).cond (m t0) (u t0) n c * D c else 0)) / m t0 n -
          (∑ c ∈ Finset.range T.nNodes, (if (n, c) ∈ T.edges ∧ (netOf T A).avail c then
            (netOf T A).cond (m t0) (u t0) n c * (lshare T A n c + (netOf T A).value (m t0) (u t0) c) else 0)) *
            dm n / m t0 n ^ 2 := by
        rw [Finset.sum_div, Finset.sum_mul, Finset.sum_div, ← Finset.sum_sub_distrib]
        apply Finset.sum_congr rfl
        intro c _
        split_ifs
        · field_simp
        · simp
      rw [e1]
      field_simp
      ring

theorem net_prob_hasDeriv (h : Network T) (m u : ℝ → Nat → ℝ) (dm du D Q : Nat → ℝ) (t0 : ℝ)
    (hm0 : ∀ n, T.nAlts ≤ n → n < T.nNodes → m t0 n ≠ 0)
    (hm : ∀ n, T.nAlts ≤ n → n < T.nNodes → HasDerivAt (fun t => m t n) (dm n) t0)
    (hu : ∀ a < T.nAlts, A a = true → HasDerivAt (fun t => u t a) (du a) t0)
    (hDa : ∀ a < T.nAlts, A a = true → D a = du a)
    (hDn : ∀ n, T.nAlts ≤ n → (netOf T A).avail n → D n =
      ∑ c ∈ Finset.range T.nNodes, (if (n, c) ∈ T.edges ∧ (netOf T A).avail c then
        (netOf T A).cond (m t0) (u t0) n c * D c else 0) +
      dm n * (((netOf T A).value (m t0) (u t0) n - ∑ c ∈ Finset.range T.nNodes,
        if (n, c) ∈ T.edges ∧ (netOf T A).avail c then (netOf T A).cond (m t0) (u t0) n c *
          (lshare T A n c + (netOf T A).value (m t0) (u t0) c) else 0) / m t0 n))
    (hQr : Q (T.nNodes - 1) = 0)
    (hQ : ∀ n, n + 1 < T.nNodes → (netOf T A).avail n → Q n = ∑ p ∈ Finset.range T.nNodes, if (p, n) ∈ T.edges then
      ((D n - D p + dm p * (((netOf T A).value (m t0) (u t0) p - (netOf T A).value (m t0) (u t0) n) / m t0 p -
          lshare T A p n / m t0 p)) *
        ((netOf T A).prob (m t0) (u t0) p / m t0 p) + Q p) * (netOf T A).cond (m t0) (u t0) p n else 0) :
    ∀ n < T.nNodes, (netOf T A).avail n → HasDerivAt (fun t => (netOf T A).prob (m t) (u t) n) (Q n) t0 := by
  have hV := net_value_hasDeriv h m u dm du D t0 hm0 hm hu hDa hDn
  refine net_down h ?_ ?_
  · intro _
    simp only [net_prob_root h]
    rw [hQr]
    exact hasDerivAt_const _ _
  · intro n hn ih ha
    simp only [net_prob h hn, ha, if_true]
    rw [hQ n hn ha]
    apply HasDerivAt.fun_sum
    intro p _
    by_cases he : (p, n) ∈ T.edges
    · simp only [he, if_true]
      have hlt := edge_lt h he
      have hpa := net_avail_parent h he ha
      have hm1 := hm0 p hlt.2.1 hlt.2.2
      have hdp := net_denom_pos (mu := m t0) (u := u t0) h hlt.2.1 hpa
      have hd := net_denom_hasDeriv h m u dm D t0 hlt.2.1 hpa hm1 (hm p hlt.2.1 hlt.2.2) (fun c _ hca => hV c hca)
      have ht := ((((hV n ha).const_add (lshare T A p n)).fun_div (hm p hlt.2.1 hlt.2.2) hm1)).exp
      have hc := ht.fun_div hd (ne_of_gt hdp)
      refine ((ih p he hpa).mul hc).congr_deriv ?_
      have e : Real.exp ((lshare T A p n + (netOf T A).value (m t0) (u t0) n) / m t0 p) = term T A (m t0) (u t0) p n := rfl
      have hDp := hDn p hlt.2.1 hpa
      have e1 : ∑ c ∈ Finset.range T.nNodes, (if (p, c) ∈ T.edges ∧ (netOf T A).avail c then
        (netOf T A).cond (m t0) (u t0) p c *
          (D c / m t0 p - (lshare T A p c + (netOf T A).value (m t0) (u t0) c) * dm p / m t0 p ^ 2) else 0) =
          D p / m t0 p - dm p * (netOf T A).value (m t0) (u t0) p / m t0 p ^ 2 := by
        rw [hDp]
        have : ∀ X Y : ℝ, (X + dm p * (((netOf T A).value (m t0) (u t0) p - Y) / m t0 p)) / m t0 p -
            dm p * (netOf T A).value (m t0) (u t0) p / m t0 p ^ 2 = X / m t0 p - Y * dm p / m t0 p ^ 2 := by
          intro X Y; field_simp; ring
        rw [this, Finset.sum_div, Finset.sum_mul, Finset.sum_div, ← Finset.sum_sub_distrib]
        apply Finset.sum_congr rfl
        intro c _
        split_ifs
        · field_simp
        · simp
      rw [e, e1, net_cond]
      field_simp
      ring
    · simp only [he, if_false]
      exact hasDerivAt_const _ _

end deriv

/-! ### The utility gradients -/

section code

variable {T : Tree} {A : Nat → Bool} {θ : Nat → ℝ} {hold : Nat → Bool}

/-- the child's own adjustment on a row -/
noncomputable def adj (T : Tree) (θ : Nat → ℝ) (hold : Nat → Bool) (U : Arr) (c : Nat) (row : Nat → X) : Nat → X := fun p =>
  if T.nAlts ≤ c ∧ slotOf T hold c = some p then (row p + U c) / .fin (muOf T θ c) else row p

/-- the amount subtracted from the parent's own entry -/
noncomputable def sub1 (T : Tree) (θ : Nat → ℝ) (U : Arr) (cp : X) (e : Nat × Nat) : X :=
  if alpha T e = 1 then -(cp * U e.2) else -(cp * (U e.2 + .fin (muOf T θ e.2) * .fin (logalpha T e)))

/-- accumulation of one edge into the parent's row -/
noncomputable def accRow (T : Tree) (θ : Nat → ℝ) (hold : Nat → Bool) (U : Arr) (cl : Nat × Nat → X) (e : Nat × Nat)
    (x y : Nat → X) : Nat → X :=
  if X.gt (cl e) .ninf then fun p =>
    (if slotOf T hold e.1 = some p then x p + sub1 T θ U (X.exp (cl e)) e else x p) + X.exp (cl e) * adj T θ hold U e.2 y p
  else x

noncomputable def accStep (T : Tree) (θ : Nat → ℝ) (hold : Nat → Bool) (U : Arr) (cl : Nat × Nat → X) (E : Arr2)
    (e : Nat × Nat) : Arr2 := update E e.1 (accRow T θ hold U cl e (E e.1) (E e.2))

theorem dUOwn_eq (U : Arr) (D : Arr2) (c : Nat) : dUOwn T θ hold U D c = update D c (adj T θ hold U c (D c)) := by
  unfold dUOwn
  by_cases hc : T.nAlts ≤ c
  · rw [if_pos hc]
    cases hs : slotOf T hold c with
    | none =>
      simp only
      rw [show adj T θ hold U c (D c) = D c by funext p; simp [adj, hs], update_eq_self]
    | some s =>
      simp only [set2]
      congr 1
      funext p
      unfold adj
      by_cases hp : p = s
      · subst hp; rw [update_self, if_pos ⟨hc, hs⟩]
      · rw [update_of_ne hp, if_neg (by rintro ⟨_, h2⟩; rw [hs] at h2; exact hp (by injection h2 with h2; exact h2.symm))]
  · rw [if_neg hc, show adj T θ hold U c (D c) = D c by funext p; simp [adj, hc], update_eq_self]

theorem dUStep_eq (U : Arr) (cl : Nat × Nat → X) (D : Arr2) (e : Nat × Nat) (hne : e.2 ≠ e.1) :
    dUStep T θ hold U cl D e = if X.gt (cl e) .ninf then
      update (update D e.2 (adj T θ hold U e.2 (D e.2))) e.1 (accRow T θ hold U cl e (D e.1) (D e.2)) else D := by
  unfold dUStep
  by_cases hg : X.gt (cl e) .ninf
  · rw [if_pos hg, if_pos hg]
    simp only
    rw [dUOwn_eq]
    set D1 := update D e.2 (adj T θ hold U e.2 (D e.2)) with hD1
    have h1 : D1 e.1 = D e.1 := by rw [hD1, update_of_ne hne.symm]
    have h2 : D1 e.2 = adj T θ hold U e.2 (D e.2) := by rw [hD1, update_self]
    have key : dUMu T θ hold U (X.exp (cl e)) D1 e = update D1 e.1 (fun p =>
        if slotOf T hold e.1 = some p then D e.1 p + sub1 T θ U (X.exp (cl e)) e else D e.1 p) := by
      unfold dUMu sub1
      cases hs : slotOf T hold e.1 with
      | none =>
        simp only [reduceCtorEq, if_false]
        rw [← h1, update_eq_self]
      | some s =>
        simp only
        split_ifs with ha
        · unfold addAt2 set2
          congr 1
          funext p
          by_cases hp : p = s
          · subst hp; simp [h1]
          · simp [hp, h1, Ne.symm hp]
        · unfold addAt2 set2
          congr 1
          funext p
          by_cases hp : p = s
          · subst hp; simp [h1]
          · simp [hp, h1, Ne.symm hp]
    rw [key, update_idem, update_self, update_of_ne hne, h2]
    congr 1
    unfold accRow
    rw [if_pos hg]
  · rw [if_neg hg, if_neg hg]

/-- The rows computed by the loop: the accumulated row, adjusted once when the node was a child. -/
theorem dU_inv (h1 : SingleNests T) (U : Arr) (cl : Nat × Nat → X) (D0 : Arr2) (l : List (Nat × Nat)) :
    (∀ e ∈ l, e ∈ T.edges ∧ e.2 < e.1) → l.Nodup → l.Pairwise (fun a b => a.1 ≤ b.1) → ∀ n,
      l.foldl (dUStep T θ hold U cl) D0 n = if ∃ e ∈ l, e.2 = n ∧ X.gt (cl e) .ninf then
        adj T θ hold U n (l.foldl (accStep T θ hold U cl) D0 n) else l.foldl (accStep T θ hold U cl) D0 n := by
  induction l using List.reverseRecOn with
  | nil => intro _ _ _ n; simp
  | append_singleton l e ih =>
    intro hl hnd hs n
    rw [List.foldl_append, List.foldl_append, List.foldl_cons, List.foldl_nil, List.foldl_cons, List.foldl_nil]
    have hl' : ∀ x ∈ l, x ∈ T.edges ∧ x.2 < x.1 := fun x hx => hl x (List.mem_append_left _ hx)
    rw [List.nodup_append] at hnd
    rw [List.pairwise_append] at hs
    have ih' := ih hl' hnd.1 hs.1
    set D := l.foldl (dUStep T θ hold U cl) D0 with hD
    set E := l.foldl (accStep T θ hold U cl) D0 with hE
    obtain ⟨heT, helt⟩ := hl e (by simp)
    rw [dUStep_eq U cl D e (by omega)]
    have hex : (∃ x ∈ l ++ [e], x.2 = n ∧ X.gt (cl x) .ninf) ↔
        ((∃ x ∈ l, x.2 = n ∧ X.gt (cl x) .ninf) ∨ (e.2 = n ∧ X.gt (cl e) .ninf)) := by
      simp only [List.mem_append, List.mem_singleton]
      constructor
      · rintro ⟨x, hx | rfl, h2⟩
        · exact Or.inl ⟨x, hx, h2⟩
        · exact Or.inr h2
      · rintro (⟨x, hx, h2⟩ | h2)
        · exact ⟨x, Or.inl hx, h2⟩
        · exact ⟨e, Or.inr rfl, h2⟩
    have hpar : D e.1 = E e.1 := by
      rw [ih', if_neg]
      rintro ⟨x, hx, hx2, _⟩
      have := (hl' x hx).2
      have := hs.2.2 x hx e (by simp)
      omega
    by_cases hg : X.gt (cl e) .ninf
    · rw [if_pos hg]
      have hch : adj T θ hold U e.2 (D e.2) = adj T θ hold U e.2 (E e.2) := by
        by_cases hc : T.nAlts ≤ e.2
        · have : D e.2 = E e.2 := by
            rw [ih', if_neg]
            rintro ⟨x, hx, hx2, _⟩
            have hxe : x = e := by
              have := h1 x.1 e.1 e.2 (by rw [← hx2]; exact (hl' x hx).1) heT hc
              exact Prod.ext this hx2
            exact hnd.2.2 x hx e (by simp) hxe
          rw [this]
        · have hid : ∀ row, adj T θ hold U e.2 row = row := fun row => by funext p; simp [adj, hc]
          rw [hid, hid, ih']
          split_ifs
          · rw [hid]
          · rfl
      have hacc : accRow T θ hold U cl e (D e.1) (D e.2) = accRow T θ hold U cl e (E e.1) (E e.2) := by
        unfold accRow
        rw [hpar, hch]
      rw [hacc]
      unfold accStep
      by_cases hn1 : n = e.1
      · subst hn1
        rw [update_self, update_self, if_neg]
        rw [hex]
        rintro (⟨x, hx, hx2, _⟩ | ⟨h2, _⟩)
        · have := (hl' x hx).2
          have := hs.2.2 x hx e (by simp)
          omega
        · omega
      · rw [update_of_ne hn1, update_of_ne hn1]
        by_cases hn2 : n = e.2
        · subst hn2
          rw [update_self, hch, if_pos (hex.mpr (Or.inr ⟨rfl, hg⟩))]
        · rw [update_of_ne hn2, ih']
          simp only [hex]
          have : ¬ (e.2 = n ∧ X.gt (cl e) .ninf) := fun hh => hn2 hh.1.symm
          simp only [this, or_false]
    · rw [if_neg hg]
      have hE' : accStep T θ hold U cl E e = E := by
        unfold accStep accRow
        rw [if_neg hg, update_eq_self]
      rw [hE', ih']
      simp only [hex]
      have : ¬ (e.2 = n ∧ X.gt (cl e) .ninf) := fun hh => hg hh.2
      simp only [this, or_false]

theorem fwd_order (h : Network T) : T.edges.Pairwise (fun a b => b.1 ≠ a.2) := by
  have : T.edges.Pairwise (fun a b => a.1 ≤ b.1 ∧ a.2 < a.1) := by
    rw [List.pairwise_and_iff]
    refine ⟨h.sorted, ?_⟩
    rw [List.pairwise_iff_forall_sublist]
    intro a b hab
    exact (h.edge a (hab.subset (by simp))).1
  exact this.imp (fun hab => by omega)

/-- the log share term the code uses for child `c` -/
noncomputable def codeShare (T : Tree) (θ : Nat → ℝ) (e : Nat × Nat) : ℝ :=
  if alpha T e = 1 then 0 else muOf T θ e.2 * logalpha T e

/-- The real rows of the utility gradient. -/
structure Rows (T : Tree) (A : Nat → Bool) (θ : Nat → ℝ) (hold : Nat → Bool) (V : Nat → ℝ) (k : Nat × Nat → ℝ)
    (d0 : Nat → Nat → ℝ) (G F : Nat → Nat → ℝ) : Prop where
  alt : ∀ a < T.nAlts, ∀ p, F a p = d0 a p
  own : ∀ n, T.nAlts ≤ n → ∀ p, F n p = if slotOf T hold n = some p then (G n p + V n) / muN T θ n else G n p
  acc : ∀ n, T.nAlts ≤ n → n < T.nNodes → ∀ p, G n p = ∑ c ∈ Finset.range T.nNodes,
    if (n, c) ∈ T.edges ∧ (netOf T A).avail c then
      k (n, c) * F c p - (if slotOf T hold n = some p then k (n, c) * (V c + codeShare T θ (n, c)) else 0) else 0

theorem dUPass_real (h : Network T) (h1 : SingleNests T) (U : Arr) (V : Nat → ℝ) (k : Nat × Nat → ℝ) (cl : Nat × Nat → X)
    (dU : Arr2) (d0 : Nat → Nat → ℝ) (hmu : ∀ n, T.nAlts ≤ n → n < T.nNodes → muN T θ n ≠ 0)
    (hU : ∀ n < T.nNodes, (netOf T A).avail n → U n = .fin (V n))
    (hcl : ∀ e ∈ T.edges, if (netOf T A).avail e.2 then X.gt (cl e) .ninf ∧ X.exp (cl e) = .fin (k e) else ¬ X.gt (cl e) .ninf)
    (hd : ∀ n p, dU n p = .fin (d0 n p)) :
    ∃ G F : Nat → Nat → ℝ, Rows T A θ hold V k d0 G F ∧
      (∀ n < T.nNodes, (netOf T A).avail n → ∀ p,
        dUPass T θ hold U cl dU n p = .fin (if n = T.nNodes - 1 then G n p else F n p)) := by
  set D0 : Arr2 := fun n p => if T.nAlts ≤ n ∧ n < T.nNodes then 0 else dU n p with hD0
  set E := T.edges.foldl (accStep T θ hold U cl) D0 with hE
  have hfold : ∀ n, E n = (T.edges.filter (fun e => e.1 = n)).foldl (fun x e => accRow T θ hold U cl e x (E e.2)) (D0 n) := by
    intro n
    exact dag_fold (fun e : Nat × Nat => e.2) (fun e => e.1) (accRow T θ hold U cl) T.edges (fwd_order h)
      (fun e he => by have := h.edge e he; omega) D0 n
  -- the real rows
  let G : Nat → Nat → ℝ := fun n p => (E n p).toReal
  let F : Nat → Nat → ℝ := fun n p =>
    if T.nAlts ≤ n ∧ slotOf T hold n = some p then (G n p + V n) / muN T θ n else G n p
  have hadj : ∀ n < T.nNodes, (netOf T A).avail n → (∀ p, E n p = .fin (G n p)) → ∀ p, adj T θ hold U n (E n) p = .fin (F n p) := by
    intro n hn ha hfin p
    unfold adj
    simp only [F]
    split_ifs with hs
    · rw [hfin, hU n hn ha, X.fin_add, muOf_nest hs.1, X.fin_div (hmu n hs.1 hn)]
    · exact hfin p
  have hedge : ∀ n e, e ∈ T.edges.filter (fun e => e.1 = n) → (∀ p, E e.2 p = .fin (G e.2 p)) → ∀ x : Nat → ℝ,
      accRow T θ hold U cl e (fun p => .fin (x p)) (E e.2) = fun p => .fin (x p + if (netOf T A).avail e.2 then
        k e * F e.2 p - (if slotOf T hold n = some p then k e * (V e.2 + codeShare T θ e) else 0) else 0) := by
    intro n e he hfin x
    simp only [List.mem_filter, decide_eq_true_eq] at he
    obtain ⟨heT, hen⟩ := he
    have hlt := h.edge e heT
    have hc := hcl e heT
    unfold accRow
    by_cases ha : (netOf T A).avail e.2
    · rw [if_pos ha] at hc
      rw [if_pos hc.1]
      funext p
      rw [hadj e.2 (by omega) ha hfin p, hc.2, hen, if_pos ha]
      have hsub : sub1 T θ U (.fin (k e)) e = .fin (-(k e * (V e.2 + codeShare T θ e))) := by
        unfold sub1 codeShare
        rw [hU e.2 (by omega) ha]
        split_ifs
        · rw [X.fin_mul, X.fin_neg, add_zero]
        · rw [X.fin_mul, X.fin_add, X.fin_mul, X.fin_neg]
      rw [hsub]
      split_ifs
      · rw [X.fin_add, X.fin_mul, X.fin_add]; congr 1; ring
      · rw [X.fin_mul, X.fin_add]; congr 1; ring
    · rw [if_neg ha] at hc
      rw [if_neg hc]
      funext p
      rw [if_neg ha, add_zero]
  have hrow : ∀ n, (∀ e ∈ T.edges.filter (fun e => e.1 = n), ∀ p, E e.2 p = .fin (G e.2 p)) → ∀ r0 : Nat → ℝ,
      (D0 n = fun p => .fin (r0 p)) → ∀ p, E n p = .fin (r0 p + ∑ c ∈ Finset.range T.nNodes,
        if (n, c) ∈ T.edges ∧ (netOf T A).avail c then
          k (n, c) * F c p - (if slotOf T hold n = some p then k (n, c) * (V c + codeShare T θ (n, c)) else 0) else 0) := by
    intro n hfin r0 hr0 p
    rw [hfold n, hr0]
    have gen : ∀ (l : List (Nat × Nat)), (∀ e ∈ l, e ∈ T.edges.filter (fun e => e.1 = n)) → ∀ x : Nat → ℝ,
        l.foldl (fun x e => accRow T θ hold U cl e x (E e.2)) (fun p => .fin (x p)) = fun p => .fin (x p +
          (l.map (fun e => if (netOf T A).avail e.2 then
            k e * F e.2 p - (if slotOf T hold n = some p then k e * (V e.2 + codeShare T θ e) else 0) else 0)).sum) := by
      intro l
      induction l with
      | nil => intro _ x; simp
      | cons e l ih =>
        intro hl x
        rw [List.foldl_cons, hedge n e (hl e List.mem_cons_self) (hfin e (hl e List.mem_cons_self)),
          ih (fun y hy => hl y (List.mem_cons_of_mem _ hy))]
        funext p
        rw [List.map_cons, List.sum_cons, add_assoc]
    rw [gen _ (fun e he => he)]
    simp only
    rw [sum_out h n]
    congr 2
    apply Finset.sum_congr rfl
    intro c _
    by_cases he : (n, c) ∈ T.edges
    · by_cases ha : (netOf T A).avail c <;> simp [he, ha]
    · simp [he]
  have hfin : ∀ n < T.nNodes, ∀ p, E n p = .fin (G n p) := by
    intro n
    induction n using Nat.strong_induction_on with
    | _ n ih =>
      intro hn p
      have : ∃ r, E n p = .fin r := by
        by_cases hna : T.nAlts ≤ n
        · exact ⟨_, hrow n (fun e he p => by
            simp only [List.mem_filter, decide_eq_true_eq] at he
            have := h.edge e he.1
            exact ih e.2 (by omega) (by omega) p) (fun _ => 0) (by
              funext p; rw [hD0]; simp only [hna, hn, and_self, if_true]; rfl) p⟩
        · exact ⟨_, hrow n (fun e he p => by
            simp only [List.mem_filter, decide_eq_true_eq] at he
            have := h.edge e he.1
            omega) (fun p => d0 n p) (by
              funext p; rw [hD0]; simp only [hna, false_and, if_false]; exact hd n p) p⟩
      obtain ⟨r, hr⟩ := this
      simp only [G, hr, X.toReal_fin]
  refine ⟨G, F, ⟨?_, ?_, ?_⟩, ?_⟩
  · intro a ha p
    simp only [F]
    rw [if_neg (fun hh => by omega)]
    have hE0 : E a = D0 a := by
      rw [hfold a]
      have : T.edges.filter (fun e => e.1 = a) = [] := by
        rw [List.filter_eq_nil_iff]
        intro e he
        have := h.edge e he
        simp only [decide_eq_true_eq]; omega
      rw [this, List.foldl_nil]
    have : E a p = .fin (d0 a p) := by
      rw [hE0, hD0]; simp only; rw [if_neg (by omega), hd]
    simp only [G, this, X.toReal_fin]
  · intro n hn p
    simp only [F, hn, true_and]
  · intro n hn hlt p
    have hr := hrow n (fun e he p => by
        simp only [List.mem_filter, decide_eq_true_eq] at he
        have := h.edge e he.1
        exact hfin e.2 (by omega) p) (fun _ => 0) (by
          funext p; rw [hD0]; simp only [hn, hlt, and_self, if_true]; rfl) p
    rw [hfin n hlt p, X.fin_inj, zero_add] at hr
    exact hr
  · intro n hn ha p
    have hinv := dU_inv (θ := θ) (hold := hold) h1 U cl D0 T.edges (fun e he => ⟨he, (h.edge e he).1⟩) h.nodup h.sorted n
    have hdef : dUPass T θ hold U cl dU = T.edges.foldl (dUStep T θ hold U cl) D0 := rfl
    rw [hdef, hinv]
    by_cases hr : n = T.nNodes - 1
    · rw [if_neg, if_pos hr, ← hE, hfin n hn]
      rintro ⟨e, he, he2, _⟩
      have := h.edge e he
      omega
    · obtain ⟨q, hq⟩ := h.covered n (by omega)
      have hc := hcl _ hq
      simp only at hc
      rw [if_pos ha] at hc
      rw [if_pos ⟨(q, n), hq, rfl, hc.1⟩, if_neg hr, ← hE]
      exact hadj n hn ha (hfin n hn) p

/-! ### The probability gradients -/

theorem dPPass_real (h : Network T) (U P : Arr) (V Pr : Nat → ℝ) (k : Nat × Nat → ℝ) (cl : Nat × Nat → X)
    (dU : Arr2) (R : Nat → Nat → ℝ) (hmu : ∀ n, T.nAlts ≤ n → n < T.nNodes → muN T θ n ≠ 0)
    (hU : ∀ n < T.nNodes, (netOf T A).avail n → U n = .fin (V n))
    (hP : ∀ n < T.nNodes, (netOf T A).avail n → P n = .fin (Pr n))
    (hcl : ∀ e ∈ T.edges, (netOf T A).avail e.2 → X.exp (cl e) = .fin (k e))
    (hR : ∀ n < T.nNodes, (netOf T A).avail n → ∀ p, dU n p = .fin (R n p)) :
    ∃ Q : Nat → Nat → ℝ, (∀ n < T.nNodes, (netOf T A).avail n → ∀ p, dPPass T θ hold U P cl dU n p = .fin (Q n p)) ∧
      (∀ p, Q (T.nNodes - 1) p = 0) ∧
      (∀ n, n + 1 < T.nNodes → (netOf T A).avail n → ∀ p, Q n p = ∑ q ∈ Finset.range T.nNodes, if (q, n) ∈ T.edges then
        ((R n p - R q p + (if slotOf T hold q = some p then 1 else 0) *
          ((V q - V n) / muN T θ q - logalpha T (q, n) / muN T θ q)) * (Pr q / muN T θ q) + Q q p) * k (q, n) else 0) := by
  have hroot := h.root
  set f : Nat × Nat → (Nat → X) → (Nat → X) → (Nat → X) := fun e x y => fun p =>
    x p + (scratch T θ hold U P dU e p + y p) * X.exp (cl e) with hf
  set W := dPPass T θ hold U P cl dU with hW
  have hfold : ∀ n, W n = (T.edges.reverse.filter (fun e => e.2 = n)).foldl (fun x e => f e x (W e.1)) (fun _ => 0) := by
    intro n
    exact dag_fold (fun e : Nat × Nat => e.1) (fun e => e.2) f T.edges.reverse (rev_order h) (fun e he => by
      have := h.edge e (by simpa using he); omega) (fun _ _ => 0) n
  let Q : Nat → Nat → ℝ := fun n p => (W n p).toReal
  have hrootW : ∀ p, W (T.nNodes - 1) p = .fin 0 := by
    intro p
    rw [hfold]
    have : T.edges.reverse.filter (fun e => e.2 = T.nNodes - 1) = [] := by
      rw [List.filter_eq_nil_iff]
      intro x hx
      have := h.edge x (by simpa using hx)
      simp only [decide_eq_true_eq]; omega
    rw [this, List.foldl_nil]; rfl
  have hstep : ∀ n, n + 1 < T.nNodes → (netOf T A).avail n → (∀ q, (q, n) ∈ T.edges → ∀ p, W q p = .fin (Q q p)) → ∀ p,
      W n p = .fin (∑ q ∈ Finset.range T.nNodes, if (q, n) ∈ T.edges then
        ((R n p - R q p + (if slotOf T hold q = some p then 1 else 0) *
          ((V q - V n) / muN T θ q - logalpha T (q, n) / muN T θ q)) * (Pr q / muN T θ q) + Q q p) * k (q, n) else 0) := by
    intro n hn ha hq p
    set g : Nat × Nat → Nat → ℝ := fun e p => ((R n p - R e.1 p + (if slotOf T hold e.1 = some p then 1 else 0) *
          ((V e.1 - V n) / muN T θ e.1 - logalpha T (e.1, n) / muN T θ e.1)) * (Pr e.1 / muN T θ e.1) + Q e.1 p) * k (e.1, n) with hg
    have hedge : ∀ e ∈ T.edges.reverse.filter (fun e => e.2 = n), ∀ x : Nat → ℝ,
        f e (fun p => .fin (x p)) (W e.1) = fun p => .fin (x p + g e p) := by
      rintro ⟨q, c⟩ he x
      simp only [List.mem_filter, List.mem_reverse, decide_eq_true_eq] at he
      obtain ⟨he, rfl⟩ := he
      have hlt := edge_lt h he
      have hqa := net_avail_parent h he ha
      have hm := hmu q hlt.2.1 hlt.2.2
      funext p
      simp only [hf]
      rw [hcl _ he ha, hq q he p]
      have hs : scratch T θ hold U P dU (q, c) p = .fin ((R c p - R q p + (if slotOf T hold q = some p then 1 else 0) *
          ((V q - V c) / muN T θ q - logalpha T (q, c) / muN T θ q)) * (Pr q / muN T θ q)) := by
        unfold scratch
        simp only [muOf_nest hlt.2.1]
        rw [if_pos hm, hR c (by omega) ha, hR q hlt.2.2 hqa, hU q hlt.2.2 hqa, hU c (by omega) ha, hP q hlt.2.2 hqa]
        simp only [X.fin_sub, X.fin_div hm, X.fin_add, X.fin_mul]
        by_cases hsl : slotOf T hold q = some p
        · simp only [hsl, if_true]
          by_cases hal : alpha T (q, c) = 1
          · rw [if_neg (not_not.mpr hal)]
            have : logalpha T (q, c) = 0 := by unfold logalpha; rw [hal, Real.log_one]
            rw [X.fin_mul, this]
            congr 1; ring
          · rw [if_pos hal, X.fin_mul]
            congr 1; ring
        · simp only [hsl, if_false]
          rw [X.fin_mul]
          congr 1; ring
      rw [hs, X.fin_add, X.fin_mul, X.fin_add]
    have gen : ∀ (l : List (Nat × Nat)), (∀ e ∈ l, e ∈ T.edges.reverse.filter (fun e => e.2 = n)) → ∀ x : Nat → ℝ,
        l.foldl (fun x e => f e x (W e.1)) (fun p => .fin (x p)) = fun p => .fin (x p + (l.map (fun e => g e p)).sum) := by
      intro l
      induction l with
      | nil => intro _ x; simp
      | cons e l ih =>
        intro hl x
        rw [List.foldl_cons, hedge e (hl e List.mem_cons_self), ih (fun y hy => hl y (List.mem_cons_of_mem _ hy))]
        funext p
        rw [List.map_cons, List.sum_cons, add_assoc]
    have := gen _ (fun e he => he) (fun _ => 0)
    rw [hfold n]
    have h0 : (fun _ => 0 : Nat → X) = fun _ => X.fin 0 := rfl
    rw [h0, this]
    simp only [zero_add]
    rw [List.filter_reverse, List.map_reverse, List.sum_reverse, sum_in h n (fun e => g e p)]
  have hfin : ∀ n < T.nNodes, (netOf T A).avail n → ∀ p, W n p = .fin (Q n p) := by
    refine net_down h ?_ ?_
    · intro _ p
      simp only [Q, hrootW, X.toReal_fin]
    · intro n hn ih ha p
      have := hstep n hn ha (fun q hq p => ih q hq (net_avail_parent h hq ha) p) p
      simp only [Q, this, X.toReal_fin]
  refine ⟨Q, hfin, fun p => by simp only [Q, hrootW, X.toReal_fin], ?_⟩
  intro n hn ha p
  have := hstep n hn ha (fun q hq p => hfin q (edge_lt h hq).2.2 (net_avail_parent h hq ha) p) p
  rw [hfin n (by omega) ha p, X.fin_inj] at this
  exact this

theorem nlGrad_real (n : Nat) (ch : Nat → ℝ) (wt : ℝ) (P : Arr) (dP : Arr2) (Pr : Nat → ℝ) (Q : Nat → Nat → ℝ)
    (hP : ∀ a < n, ch a ≠ 0 → P a = .fin (Pr a) ∧ 0 < Pr a) (hQ : ∀ a < n, ch a ≠ 0 → ∀ p, dP a p = .fin (Q a p)) :
    (∀ p, (nlGrad n ch wt P dP).dll p = .fin (wt * ∑ a ∈ Finset.range n, ch a * (Q a p / Pr a))) ∧
    (∀ p q, (nlGrad n ch wt P dP).bhhh p q =
      .fin (wt * ∑ a ∈ Finset.range n, ch a * ((Q a p / Pr a) * (Q a q / Pr a)))) := by
  unfold nlGrad
  induction n with
  | zero => simp [X.zero_def]
  | succ n ih =>
    obtain ⟨i1, i2⟩ := ih (fun a ha => hP a (by omega)) (fun a ha => hQ a (by omega))
    rw [List.range_succ, List.foldl_append, List.foldl_cons, List.foldl_nil]
    set g := (List.range n).foldl (fun (g : Grad) a => if ch a = 0 then g
      else if X.gt (P a) 0 then
        let t : Arr := fun p => dP a p * (.fin (ch a) / P a)
        let d : Arr := fun p => t p / .fin (ch a)
        { dll := fun p => g.dll p + t p * .fin wt
          bhhh := fun p q => g.bhhh p q + d p * d q * .fin (ch a) * .fin wt }
      else g) ⟨fun _ => 0, fun _ _ => 0⟩ with hg
    by_cases hc : ch n = 0
    · rw [if_pos hc]
      simp only [Finset.sum_range_succ, hc, zero_mul, add_zero]
      exact ⟨i1, i2⟩
    · obtain ⟨hp, hpos⟩ := hP n (by omega) hc
      rw [if_neg hc, if_pos (by rw [hp]; exact hpos)]
      simp only
      have hq := hQ n (by omega) hc
      have hne := ne_of_gt hpos
      constructor
      · intro p
        rw [i1 p, hq p, hp, X.fin_div hne, X.fin_mul, X.fin_mul, X.fin_add, Finset.sum_range_succ]
        congr 1; field_simp
      · intro p q
        rw [i2 p q, hq p, hq q, hp, X.fin_div hne, X.fin_mul, X.fin_mul, X.fin_div hc, X.fin_div hc, X.fin_mul, X.fin_mul,
          X.fin_mul, X.fin_add, Finset.sum_range_succ]
        congr 1; field_simp

end code

end Larch.Compiled
