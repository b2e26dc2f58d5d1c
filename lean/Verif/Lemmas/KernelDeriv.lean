import Verif.Lemmas.KernelGrad
import Verif.Lemmas.KernelUtilReal
import Mathlib.Analysis.SpecialFunctions.Log.Deriv
import Mathlib.Analysis.SpecialFunctions.ExpDeriv
import Mathlib.Analysis.Calculus.Deriv.Inv
import Mathlib.Algebra.BigOperators.Field

namespace Larch.Kernel

open Function Larch Larch.Spec
open scoped BigOperators
open Classical

section deriv

variable (T : Tree) (av : Nat → Bool) (m u : Nat → ℝ) (dm du : Nat → ℝ)

/-- conditional probability of child `c` in nest `n` -/
noncomputable def kap (n c : Nat) : ℝ :=
  Real.exp ((shapeOf T av).value m u c / m n) / (shapeOf T av).denom m u n

/-- derivative of a node value -/
noncomputable def Vd (n : Nat) : ℝ :=
  if n < T.nAlts then du n
  else dm n * Real.log ((shapeOf T av).denom m u n) + m n *
    ∑ c : Fin n, if (n, (c : Nat)) ∈ T.edges ∧ (shapeOf T av).avail c then
      kap T av m u n c * ((Vd c * m n - (shapeOf T av).value m u c * dm n) / m n ^ 2) else 0
termination_by n
decreasing_by exact c.2

/-- derivative of the log denominator -/
noncomputable def Ld (n : Nat) : ℝ :=
  ∑ c : Fin n, if (n, (c : Nat)) ∈ T.edges ∧ (shapeOf T av).avail c then
      kap T av m u n c * ((Vd T av m u dm du c * m n - (shapeOf T av).value m u c * dm n) / m n ^ 2) else 0

theorem Vd_alt {n : Nat} (h : n < T.nAlts) : Vd T av m u dm du n = du n := by
  rw [Vd, if_pos h]

theorem Vd_nest {n : Nat} (h : T.nAlts ≤ n) : Vd T av m u dm du n =
    dm n * Real.log ((shapeOf T av).denom m u n) + m n * Ld T av m u dm du n := by
  rw [Vd, if_neg (by omega)]; rfl

end deriv

theorem avail_lt {T : Tree} (h : T.WF) (av : Nat → Bool) {n : Nat} (hn : T.nAlts ≤ n)
    (ha : (shapeOf T av).avail n) : n < T.nNodes := by
  obtain ⟨c, hc, _⟩ := (avail_nest h av hn).mp ha
  exact (h.edge _ (mem_kids.mp hc)).2.2

theorem denom_hasDeriv {T : Tree} (h : T.WF) (av : Nat → Bool) (m u : ℝ → Nat → ℝ) (dm du : Nat → ℝ) (t0 : ℝ)
    {n : Nat} (hn : T.nAlts ≤ n) (ha : (shapeOf T av).avail n) (hm0 : m t0 n ≠ 0)
    (hm : HasDerivAt (fun t => m t n) (dm n) t0)
    (ih : ∀ c < n, (n, c) ∈ T.edges → (shapeOf T av).avail c →
      HasDerivAt (fun t => (shapeOf T av).value (m t) (u t) c) (Vd T av (m t0) (u t0) dm du c) t0) :
    HasDerivAt (fun t => (shapeOf T av).denom (m t) (u t) n)
      ((shapeOf T av).denom (m t0) (u t0) n * Ld T av (m t0) (u t0) dm du n) t0 := by
  have hd := denom_pos h av (m t0) (u t0) hn ha
  have e1 : (shapeOf T av).denom (m t0) (u t0) n * Ld T av (m t0) (u t0) dm du n =
      ∑ c : Fin n, if (n, (c : Nat)) ∈ T.edges ∧ (shapeOf T av).avail c then
        Real.exp ((shapeOf T av).value (m t0) (u t0) c / m t0 n) *
        ((Vd T av (m t0) (u t0) dm du c * m t0 n - (shapeOf T av).value (m t0) (u t0) c * dm n) / m t0 n ^ 2)
        else 0 := by
    unfold Ld
    rw [Finset.mul_sum]
    apply Finset.sum_congr rfl
    intro c _
    split_ifs
    · unfold kap
      rw [← mul_assoc, mul_div_cancel₀ _ (ne_of_gt hd)]
    · ring
  rw [e1]
  unfold Shape.denom
  apply HasDerivAt.fun_sum
  intro c _
  simp only [shapeOf_child]
  split_ifs with hc
  · exact ((ih c c.2 hc.1 hc.2).fun_div hm hm0).exp
  · exact hasDerivAt_const _ _

theorem value_hasDeriv {T : Tree} (h : T.WF) (av : Nat → Bool) (m u : ℝ → Nat → ℝ) (dm du : Nat → ℝ) (t0 : ℝ)
    (hm0 : ∀ n, T.nAlts ≤ n → n < T.nNodes → m t0 n ≠ 0)
    (hm : ∀ n, T.nAlts ≤ n → HasDerivAt (fun t => m t n) (dm n) t0)
    (hu : ∀ a < T.nAlts, av a = true → HasDerivAt (fun t => u t a) (du a) t0) (n : Nat) :
    (shapeOf T av).avail n →
      HasDerivAt (fun t => (shapeOf T av).value (m t) (u t) n) (Vd T av (m t0) (u t0) dm du n) t0 := by
  induction n using Nat.strong_induction_on with
  | _ n ih =>
    intro ha
    by_cases hn : n < T.nAlts
    · simp only [value_alt av _ _ hn]
      rw [Vd_alt _ _ _ _ _ _ hn]
      exact hu n hn ((avail_alt av hn).mp ha)
    · have hn' : T.nAlts ≤ n := by omega
      simp only [value_nest' h av _ _ hn']
      rw [Vd_nest _ _ _ _ _ _ hn']
      have hd := denom_pos h av (m t0) (u t0) hn' ha
      have h1 := denom_hasDeriv h av m u dm du t0 hn' ha (hm0 n hn' (avail_lt h av hn' ha)) (hm n hn')
        (fun c hc _ hca => ih c hc hca)
      have h2 := (hm n hn').fun_mul (h1.log (ne_of_gt hd))
      rw [mul_div_cancel_left₀ _ (ne_of_gt hd)] at h2
      exact h2

/-- derivative of a node probability divided by the probability -/
theorem prob_hasDeriv {T : Tree} (h : T.WF) (av : Nat → Bool) (m u : ℝ → Nat → ℝ) (dm du : Nat → ℝ) (t0 : ℝ)
    (hm0 : ∀ n, T.nAlts ≤ n → n < T.nNodes → m t0 n ≠ 0)
    (hm : ∀ n, T.nAlts ≤ n → HasDerivAt (fun t => m t n) (dm n) t0)
    (hu : ∀ a < T.nAlts, av a = true → HasDerivAt (fun t => u t a) (du a) t0)
    {p c : Nat} (he : (p, c) ∈ T.edges) (ha : (shapeOf T av).avail c) (dPp : ℝ)
    (hp : HasDerivAt (fun t => (shapeOf T av).prob (m t) (u t) p) dPp t0) :
    HasDerivAt (fun t => (shapeOf T av).prob (m t) (u t) c)
      (((Vd T av (m t0) (u t0) dm du c - Vd T av (m t0) (u t0) dm du p +
          dm p * ((shapeOf T av).value (m t0) (u t0) p - (shapeOf T av).value (m t0) (u t0) c) / m t0 p) *
          ((shapeOf T av).prob (m t0) (u t0) p / m t0 p) + dPp) * kap T av (m t0) (u t0) p c) t0 := by
  have hpe := h.edge _ he
  simp only at hpe
  have hpa := avail_parent h av he ha
  have hd := denom_pos h av (m t0) (u t0) hpe.2.1 hpa
  simp only [prob_edge h av _ _ he, if_pos ha]
  have h1 := denom_hasDeriv h av m u dm du t0 hpe.2.1 hpa (hm0 p hpe.2.1 hpe.2.2) (hm p hpe.2.1)
    (fun x _ _ hxa => value_hasDeriv h av m u dm du t0 hm0 hm hu x hxa)
  have h2 := ((value_hasDeriv h av m u dm du t0 hm0 hm hu c ha).fun_div (hm p hpe.2.1) (hm0 p hpe.2.1 hpe.2.2)).exp
  have h3 := hp.fun_mul (h2.fun_div h1 (ne_of_gt hd))
  refine h3.congr_deriv ?_
  have hmp := hm0 p hpe.2.1 hpe.2.2
  have hv := value_nest' h av (m t0) (u t0) hpe.2.1
  rw [Vd_nest T av (m t0) (u t0) dm du hpe.2.1, hv]
  unfold kap
  set D := (shapeOf T av).denom (m t0) (u t0) p
  set L := Ld T av (m t0) (u t0) dm du p
  have hD : D ≠ 0 := ne_of_gt hd
  field_simp
  ring

/-! ### the code's recursion agrees with the derivative -/

/-- `Vd` of a nest, distributed. -/
theorem Vd_nest_sum {T : Tree} (h : T.WF) (av : Nat → Bool) (m u dm du : Nat → ℝ) {n : Nat} (hn : T.nAlts ≤ n)
    (hm : m n ≠ 0) : Vd T av m u dm du n = dm n * ((shapeOf T av).value m u n / m n) +
      (∑ c : Fin n, if (n, (c : Nat)) ∈ T.edges ∧ (shapeOf T av).avail c then
        kap T av m u n c * Vd T av m u dm du c else 0) -
      dm n * (∑ c : Fin n, if (n, (c : Nat)) ∈ T.edges ∧ (shapeOf T av).avail c then
        kap T av m u n c * (shapeOf T av).value m u c else 0) / m n := by
  rw [Vd_nest _ _ _ _ _ _ hn, value_nest' h av m u hn, mul_div_cancel_left₀ _ hm, add_sub_assoc]
  congr 1
  unfold Ld
  rw [Finset.mul_sum, Finset.mul_sum, Finset.sum_div, ← Finset.sum_sub_distrib]
  apply Finset.sum_congr rfl
  intro c _
  split_ifs
  · field_simp
  · ring

theorem codeG_eq_Vd {T : Tree} (h : T.WF) (θ : Nat → ℝ) (av av' : Nat → Bool) (u : Nat → ℝ) (du : Nat → ℝ)
    (k : Nat → ℝ) (d0 : Nat → Nat → ℝ) (p : Nat)
    (hav : ∀ n, av' n = true ↔ (shapeOf T av).avail n)
    (hmu : ∀ n, T.nAlts ≤ n → n < T.nNodes → muN T θ n ≠ 0)
    (hk : ∀ n c, (n, c) ∈ T.edges → (shapeOf T av).avail c → k c = kap T av (muN T θ) u n c)
    (h0a : ∀ a < T.nAlts, av a = true → d0 a p = du a) (h0n : ∀ n, T.nAlts ≤ n → d0 n p = 0)
    (hshare : ∀ n c, (n, c) ∈ T.edges → (shapeOf T av).avail c → slotIs T n p →
      Vd T av (muN T θ) u (fun n => if slotIs T n p then 1 else 0) du c = 0) :
    ∀ n, (shapeOf T av).avail n →
      codeG T θ av' ((shapeOf T av).value (muN T θ) u) k d0 n p =
        Vd T av (muN T θ) u (fun n => if slotIs T n p then 1 else 0) du n := by
  intro n
  induction n using Nat.strong_induction_on with
  | _ n ih =>
    intro ha
    have hsum : ∀ f g : Nat → ℝ, (∀ c < n, (n, c) ∈ T.edges → (shapeOf T av).avail c → f c = g c) →
        (∑ c : Fin n, if (n, (c : Nat)) ∈ T.edges ∧ av' c = true then f c else 0) =
        ∑ c : Fin n, if (n, (c : Nat)) ∈ T.edges ∧ (shapeOf T av).avail c then g c else 0 := by
      intro f g hfg
      apply Finset.sum_congr rfl
      intro c _
      simp only [hav]
      split_ifs with hc
      · exact hfg c c.2 hc.1 hc.2
      · rfl
    rw [codeG_eq]
    by_cases hn : n < T.nAlts
    · rw [if_neg (by omega), Vd_alt _ _ _ _ _ _ hn]
      unfold codeAcc
      rw [h0a n hn ((avail_alt av hn).mp ha), Finset.sum_eq_zero, add_zero]
      intro c _
      rw [if_neg]
      rintro ⟨hc, _⟩
      have := h.edge _ hc
      simp only at this
      omega
    · have hn' : T.nAlts ≤ n := by omega
      have hm := hmu n hn' (avail_lt h av hn' ha)
      rw [Vd_nest_sum h av _ _ _ _ hn' hm]
      unfold codeAcc
      rw [h0n n hn', zero_add]
      by_cases hs : slotIs T n p
      · rw [if_pos ⟨hn', hs⟩]
        have hθ : θ p = muN T θ n := by
          unfold muN; unfold slotIs at hs; rw [hs]
        have e1 : (∑ c : Fin n, if (n, (c : Nat)) ∈ T.edges ∧ (shapeOf T av).avail c then
            kap T av (muN T θ) u n c *
              Vd T av (muN T θ) u (fun n => if slotIs T n p then 1 else 0) du c else 0) = 0 := by
          apply Finset.sum_eq_zero
          intro c _
          split_ifs with hc
          · rw [hshare n c hc.1 hc.2 hs, mul_zero]
          · rfl
        rw [e1]
        rw [hsum (fun c => k c * codeG T θ av' ((shapeOf T av).value (muN T θ) u) k d0 c p -
          if slotIs T n p then k c * (shapeOf T av).value (muN T θ) u c else 0) (fun c => - (kap T av (muN T θ) u n c * (shapeOf T av).value (muN T θ) u c))]
        · have e2 : (∑ c : Fin n, if (n, (c : Nat)) ∈ T.edges ∧ (shapeOf T av).avail c then
              -(kap T av (muN T θ) u n c * (shapeOf T av).value (muN T θ) u c) else 0) =
              - ∑ c : Fin n, if (n, (c : Nat)) ∈ T.edges ∧ (shapeOf T av).avail c then
              (kap T av (muN T θ) u n c * (shapeOf T av).value (muN T θ) u c) else 0 := by
            rw [← Finset.sum_neg_distrib]
            apply Finset.sum_congr rfl
            intro c _
            split_ifs <;> ring
          rw [e2, hθ, if_pos hs]
          ring
        · intro c hc he hca
          rw [ih c hc hca, hshare n c he hca hs, hk n c he hca, if_pos hs]
          ring
      · rw [if_neg (fun hh => hs hh.2)]
        simp only [if_neg hs, zero_mul, zero_div, zero_add, sub_zero]
        rw [hsum (fun c => k c * codeG T θ av' ((shapeOf T av).value (muN T θ) u) k d0 c p) (fun c => kap T av (muN T θ) u n c *
          Vd T av (muN T θ) u (fun n => if slotIs T n p then 1 else 0) du c)]
        intro c hc he hca
        rw [ih c hc hca, hk n c he hca]

theorem Vd_zero {T : Tree} (av : Nat → Bool) (m u dm du : Nat → ℝ) :
    ∀ n, (n < T.nAlts → av n = true → du n = 0) → (T.nAlts ≤ n → dm n = 0) →
      (∀ c, Below T n c → (c < T.nAlts → av c = true → du c = 0) ∧ (T.nAlts ≤ c → dm c = 0)) →
      (shapeOf T av).avail n → Vd T av m u dm du n = 0 := by
  intro n
  induction n using Nat.strong_induction_on with
  | _ n ih =>
    intro h1 h2 h3 ha
    by_cases hn : n < T.nAlts
    · rw [Vd_alt _ _ _ _ _ _ hn]; exact h1 hn ((avail_alt av hn).mp ha)
    · have hn' : T.nAlts ≤ n := by omega
      rw [Vd_nest _ _ _ _ _ _ hn', h2 hn', zero_mul, zero_add]
      unfold Ld
      rw [Finset.sum_eq_zero, mul_zero]
      intro c _
      split_ifs with hc
      · have hb : Below T n c := Relation.TransGen.single hc.1
        rw [ih c c.2 (h3 c hb).1 (h3 c hb).2 (fun x hx => h3 x (Relation.TransGen.trans hb hx)) hc.2, h2 hn']
        ring
      · rfl

theorem codeDP_hasDeriv {T : Tree} (h : T.WF) (θ : Nat → ℝ) (av : Nat → Bool) (m u : ℝ → Nat → ℝ)
    (du : Nat → ℝ) (k ch : Nat → ℝ) (row : Nat → Nat → ℝ) (p : Nat) (t0 : ℝ)
    (hmt : m t0 = muN T θ)
    (hm0 : ∀ n, T.nAlts ≤ n → n < T.nNodes → m t0 n ≠ 0)
    (hm : ∀ n, T.nAlts ≤ n → HasDerivAt (fun t => m t n) (if slotIs T n p then 1 else 0) t0)
    (hu : ∀ a < T.nAlts, av a = true → HasDerivAt (fun t => u t a) (du a) t0)
    (hk : ∀ n c, (n, c) ∈ T.edges → (shapeOf T av).avail c → k c = kap T av (muN T θ) (u t0) n c)
    (hrow : ∀ n < T.nNodes, (shapeOf T av).avail n →
      row n p = Vd T av (muN T θ) (u t0) (fun n => if slotIs T n p then 1 else 0) du n)
    (hchav : ∀ n < T.nNodes, ch n ≠ 0 → (shapeOf T av).avail n)
    (hchup : ∀ n c, (n, c) ∈ T.edges → ch c ≠ 0 → ch n ≠ 0) :
    ∀ n < T.nNodes, n = T.nNodes - 1 ∨ ch n ≠ 0 →
      HasDerivAt (fun t => (shapeOf T av).prob (m t) (u t) n)
        (codeDP T θ ch ((shapeOf T av).value (muN T θ) (u t0)) k
          ((shapeOf T av).prob (muN T θ) (u t0)) row n p) t0 := by
  refine h.top_down ?_ ?_
  · intro _
    rw [codeDP_root]
    simp only [prob_root]
    exact hasDerivAt_const _ _
  · intro q c he ih hc
    have hpc := h.edge _ he
    simp only at hpc
    have hcc : ch c ≠ 0 := by
      rcases hc with hc | hc
      · omega
      · exact hc
    have hca := hchav c (by omega) hcc
    have hqa := avail_parent h av he hca
    have hd := prob_hasDeriv h av m u _ du t0 hm0 hm hu he hca _ (ih (Or.inr (hchup q c he hcc)))
    refine hd.congr_deriv ?_
    rw [codeDP_edge h θ ch _ k _ row he hcc, hrow c (by omega) hca, hrow q hpc.2.2 hqa, hk q c he hca, hmt]
    congr 3
    split_ifs <;> ring

/-! ### derivative of the declared utility -/

theorem size_hasDeriv (θ : Nat → ℝ) (q : List CaTerm) (x : Nat → ℝ) (p : Nat) :
    HasDerivAt (fun t => size (update θ p t) q x) (size θ (q.filter (fun t => t.param = p)) x) (θ p) := by
  induction q with
  | nil => simpa [size] using hasDerivAt_const (θ p) (0 : ℝ)
  | cons t q ih =>
    have e1 : ∀ θ', size θ' (t :: q) x = t.scale * Real.exp (θ' t.param) * x t.data + size θ' q x := by
      intro θ'; simp [size]
    simp only [e1]
    by_cases ht : t.param = p
    · have e2 : size θ ((t :: q).filter (fun t => t.param = p)) x =
          t.scale * Real.exp (θ p) * x t.data + size θ (q.filter (fun t => t.param = p)) x := by
        simp [size, ht]
      rw [e2]
      simp only [ht, update_self]
      exact (((Real.hasDerivAt_exp (θ p)).const_mul t.scale).mul_const _).add ih
    · have e2 : size θ ((t :: q).filter (fun t => t.param = p)) x =
          size θ (q.filter (fun t => t.param = p)) x := by
        simp [size, ht]
      rw [e2]
      simp only [update_of_ne ht]
      exact ih.const_add _

theorem lin_hasDeriv {τ : Type} (θ : Nat → ℝ) (l : List τ) (par : τ → Nat) (c d : τ → ℝ) (p : Nat) :
    HasDerivAt (fun t => (l.map (fun s => c s * (update θ p t) (par s) * d s)).sum)
      ((l.filter (fun s => par s = p)).map (fun s => c s * d s)).sum (θ p) := by
  induction l with
  | nil => simpa using hasDerivAt_const (θ p) (0 : ℝ)
  | cons s l ih =>
    simp only [List.map_cons, List.sum_cons]
    rw [sum_filter_cons (fun s => par s = p)]
    refine HasDerivAt.add ?_ ih
    by_cases hs : par s = p
    · simp only [hs, update_self, if_true]
      simpa using ((hasDerivAt_id (θ p)).const_mul (c s)).mul_const (d s)
    · simp only [update_of_ne hs, if_neg hs]
      exact hasDerivAt_const _ _

theorem utility_hasDeriv (M : Terms) (θ : Nat → ℝ) (co : Nat → ℝ) (ca : Nat → Nat → ℝ) (a p : Nat)
    (hS : M.q ≠ [] → 0 < size θ M.q (ca a)) :
    HasDerivAt (fun t => utility M (update θ p t) co ca a) (sizeCoef M θ ca a p + linCoef M co ca a p) (θ p) := by
  unfold utility linCoef
  rw [← add_assoc]
  have h2 := lin_hasDeriv θ M.ca CaTerm.param CaTerm.scale (fun t => ca a t.data) p
  have h3 := lin_hasDeriv θ (M.co.filter (fun t => t.alt = a)) CoTerm.param CoTerm.scale
    (fun t => coValue co t.data) p
  have e3 : (M.co.filter (fun t => t.alt = a)).filter (fun t => t.param = p) =
      M.co.filter (fun t => t.alt = a ∧ t.param = p) := by
    rw [List.filter_filter]
    congr 1
    funext t
    simp [Bool.and_comm]
  rw [e3] at h3
  refine HasDerivAt.add (HasDerivAt.add ?_ h2) h3
  unfold sizeCoef
  by_cases hq : M.q = []
  · simp only [hq, if_true]; exact hasDerivAt_const _ _
  · simp only [if_neg hq]
    have hpos := hS hq
    have hs := size_hasDeriv θ M.q (ca a) p
    have hl := hs.log (by rw [update_eq_self]; exact ne_of_gt hpos)
    rw [update_eq_self] at hl
    unfold sizeScale
    cases hsc : M.qScale with
    | none =>
      simp only [one_mul, reduceCtorEq, if_false, add_zero]
      exact hl
    | some s =>
      simp only [Option.some.injEq]
      by_cases hp : s = p
      · subst hp
        simp only [update_self, if_true]
        have := (hasDerivAt_id (θ s)).mul hl
        refine (this.congr_deriv ?_)
        simp only [id, update_eq_self]
        ring
      · simp only [update_of_ne hp, if_neg hp, add_zero]
        have := hl.const_mul (θ s)
        refine this.congr_deriv ?_
        ring

end Larch.Kernel
