import Verif.Props.KernelGrad

/-!
# C08, C09, C16: utility assembly, sparse data, cascades
-/

namespace Larch.Props

open Function Larch Larch.Kernel Larch.Spec
open scoped BigOperators
open Classical

/-! ## C08 -/

/-- **C08 (a).** The assembled utility of an available alternative is the declared function of the data; that of
an unavailable alternative is `-inf`, whatever its data. -/
theorem C08_utility_declared (θ : Nat → ℝ) (hold : Nat → Bool) (nAlts : Nat) (M : Terms) (C : Case)
    (hce : C.ce = none) (hF : FiniteData nAlts M C) (hP : PositiveSize nAlts M θ C)
    (hco : ∀ t ∈ M.co, t.alt < nAlts) :
    ∀ a < nAlts, (assemble θ hold nAlts M C).U a =
      if C.av a then .fin (utility M θ (coReal C) (caReal C) a) else .ninf := by
  intro a ha
  rw [(assemble_dense_real θ hold nAlts M C hce hF hP hco).1 a ha]
  unfold emb
  rfl

example : (assemble demoTheta (fun _ => false) 3 demoTerms demoCase).U 2 = .ninf := by
  have := C08_utility_declared demoTheta (fun _ => false) 3 demoTerms demoCase rfl demo_dense.data demo_dense.size
    demo_dense.co 2 (by norm_num)
  simpa [demoCase] using this

/-- **C08 (b).** The order in which terms are declared is irrelevant. -/
theorem C08_term_order (θ : Nat → ℝ) (hold : Nat → Bool) (nAlts : Nat) (M M' : Terms) (C : Case)
    (hce : C.ce = none) (hF : FiniteData nAlts M C) (hP : PositiveSize nAlts M θ C)
    (hco : ∀ t ∈ M.co, t.alt < nAlts)
    (h1 : M.q.Perm M'.q) (h2 : M.ca.Perm M'.ca) (h3 : M.co.Perm M'.co) (h4 : M.qScale = M'.qScale) :
    ∀ a < nAlts, (assemble θ hold nAlts M' C).U a = (assemble θ hold nAlts M C).U a := by
  have hs : ∀ x, size θ M'.q x = size θ M.q x := fun x => ((h1.map _).sum_eq).symm
  have hq : M'.q = [] ↔ M.q = [] := by
    constructor
    · intro h; rw [h] at h1; exact h1.eq_nil
    · intro h; rw [h] at h1; exact h1.symm.eq_nil
  have hF' : FiniteData nAlts M' C :=
    ⟨fun a ha hav t ht => hF.ca a ha hav t ((h1.append h2).mem_iff.mpr ht),
     fun t ht => hF.co t (h3.mem_iff.mpr ht)⟩
  have hP' : PositiveSize nAlts M' θ C := fun hne a ha hav => by
    rw [hs]; exact hP (fun h => hne (hq.mpr h)) a ha hav
  intro a ha
  rw [C08_utility_declared θ hold nAlts M' C hce hF' hP' (fun t ht => hco t (h3.mem_iff.mpr ht)) a ha,
    C08_utility_declared θ hold nAlts M C hce hF hP hco a ha]
  split_ifs with hav
  · congr 1
    unfold utility
    have e1 : sizeScale θ M' = sizeScale θ M := by unfold sizeScale; rw [h4]
    rw [hs, e1, ((h2.map _).sum_eq).symm, (((h3.filter _).map _).sum_eq).symm]
    simp only [hq]
  · rfl

/-- **C08 (c).** The utility gradient of an available alternative is the vector of partial derivatives of its
declared utility, with held-fast entries zero; unavailable alternatives have a zero row.  Missing: a
parameter occurring in two or more quantity terms (`C08_fails_duplicate_quantity`). -/
theorem C08_utility_gradient_partial (θ : Nat → ℝ) (hold : Nat → Bool) (nAlts : Nat) (M : Terms) (C : Case)
    (hce : C.ce = none) (hF : FiniteData nAlts M C) (hP : PositiveSize nAlts M θ C)
    (hco : ∀ t ∈ M.co, t.alt < nAlts) (p : Nat) (hq : (M.q.filter (fun t => t.param = p)).length ≤ 1) :
    ∀ a < nAlts, ∃ g : ℝ, (assemble θ hold nAlts M C).dU a p = .fin g ∧
      (C.av a = false → g = 0) ∧ (hold p = true → g = 0) ∧
      (C.av a = true → hold p = false →
        HasDerivAt (fun t => utility M (update θ p t) (coReal C) (caReal C) a) g (θ p)) := by
  intro a ha
  refine ⟨_, (assemble_dense_real θ hold nAlts M C hce hF hP hco).2.2 a p, ?_, ?_, ?_⟩
  · intro h; simp [h]
  · intro h; simp [codeCoef_hold _ _ _ _ _ h]
  · intro h h'
    rw [if_pos ⟨ha, h⟩, codeCoef_eq hold _ _ a p h' hq]
    exact utility_hasDeriv M θ _ _ a p (fun hne => hP hne a ha h)

example := C08_utility_gradient_partial demoTheta (fun _ => false) 3 demoTerms demoCase rfl demo_dense.data
  demo_dense.size demo_dense.co 3 (by simp [demoTerms])

/-- **C08 violated (parameter in two quantity terms).** The declared utility of alternative 0 is
`log (2 exp θ)`, with derivative 1; the computed gradient entry is 1/2. -/
theorem C08_fails_duplicate_quantity :
    HasDerivAt (fun t => utility dupTerms (update (fun _ => 0) 0 t) (coReal dupCase) (caReal dupCase) 0) 1 0 ∧
    (assemble (fun _ => 0) (fun _ => false) 2 dupTerms dupCase).dU 0 0 = .fin (1 / 2) := by
  have hD := dup_dense (fun _ => 0)
  constructor
  · have := utility_hasDeriv dupTerms (fun _ => 0) (coReal dupCase) (caReal dupCase) 0 0
      (fun hne => hD.size hne 0 (by decide) rfl)
    refine this.congr_deriv ?_
    unfold sizeCoef
    have hf : dupTerms.q.filter (fun t => t.param = 0) = dupTerms.q := rfl
    have hne : dupTerms.q ≠ [] := by simp [dupTerms]
    rw [hf, dup_size, if_neg hne]
    simp [dupTerms, sizeScale, linCoef]
  · rw [(assemble_dense_real _ (fun _ => false) 2 dupTerms dupCase rfl hD.data hD.size hD.co).2.2 0 0]
    congr 1
    rw [if_pos ⟨by norm_num, rfl⟩]
    unfold codeCoef codeSizeCoef
    have hf : dupTerms.q.filter (fun t => t.param = 0) = dupTerms.q := rfl
    have hne : dupTerms.q ≠ [] := by simp [dupTerms]
    have ho : occ dupTerms.q 0 = 2 := rfl
    rw [hf, dup_size, if_neg hne, ho]
    simp [dupTerms, sizeScale, linCoef]
    norm_num

/-! ## C09 -/

/-- **C09.** A case stored as sparse rows (in ascending order of alternative, available exactly where a row is
present) gives exactly the same complete kernel output as the dense case built from those rows - utilities,
logsums, probabilities, log likelihood, gradient and BHHH, with no condition on the data values. -/
theorem C09_sparse_eq_dense {T : Tree} (h : T.WF) (M : Terms) (hold : Nat → Bool) (θ : Nat → ℝ) (C : Case)
    (W : Work) (rows : List (Nat × (Nat → X))) (hce : C.ce = some rows)
    (hsorted : rows.Pairwise (fun a b => a.1 < b.1)) (hlt : ∀ r ∈ rows, r.1 < T.nAlts)
    (hav : ∀ a < T.nAlts, C.av a = true ↔ ∃ r ∈ rows, r.1 = a)
    (hco : ∀ t ∈ M.co, t.alt < T.nAlts)
    (dense : Nat → Nat → X) (hdense : ∀ r ∈ rows, dense r.1 = r.2) :
    runCase T M hold θ C W = runCase T M hold θ { C with ce := none, ca := dense } W := by
  unfold runCase
  simp only
  congr 1
  apply ext_get
  intro a
  rw [assemble_dense θ hold T.nAlts M ⟨C.ch, cascadeOr T C.av, C.wt, C.co, dense, none⟩ rfl]
  by_cases ha : a < T.nAlts
  · obtain ⟨s1, s2⟩ := assemble_sparse θ hold T.nAlts M ⟨C.ch, cascadeOr T C.av, C.wt, C.co, C.ca, C.ce⟩ rows hce
      hsorted hlt a ha
    simp only [ha, if_true]
    have hc := cascadeOr_alt h C.av ha
    by_cases haa : C.av a = true
    · obtain ⟨r, hr, hra⟩ := (hav a ha).mp haa
      rw [s1 r hr hra]
      simp only [hc, haa, if_true]
      rw [← hra, hdense r hr]
    · rw [s2 (fun r hr hra => haa ((hav a ha).mpr ⟨r, hr, hra⟩))]
      simp [hc, haa]
  · rw [assemble_sparse_high θ hold T.nAlts M ⟨C.ch, cascadeOr T C.av, C.wt, C.co, C.ca, C.ce⟩ rows hce
      hsorted hlt a ha]
    have e1 : M.co.filter (fun t => t.alt = a) = [] := by
      rw [List.filter_eq_nil_iff]; intro t ht
      have := hco t ht
      simp; omega
    simp only [e1, ha, if_false, List.foldl_nil]

/-- Hypotheses met: rows for alternatives 0 and 2 of the demonstration tree. -/
example (W : Work) :
    runCase demoTree demoTerms (fun _ => false) demoTheta
      { demoCase with av := fun a => a == 0 || a == 2
                      ce := some [(0, fun _ => .fin 3), (2, fun _ => .fin 4)] } W =
    runCase demoTree demoTerms (fun _ => false) demoTheta
      { demoCase with av := fun a => a == 0 || a == 2
                      ca := fun a _ => .fin (3 + a / 2)
                      ce := none } W := by
  refine C09_sparse_eq_dense demoTree_wf demoTerms _ demoTheta
    { demoCase with av := fun a => a == 0 || a == 2
                    ce := some [(0, fun _ => .fin 3), (2, fun _ => .fin 4)] } W _ rfl ?_ ?_ ?_ demo_dense.co
    (fun a _ => .fin (3 + a / 2)) ?_
  · simp
  · simp [demoTree]
  · intro a ha
    constructor
    · intro h
      rcases Bool.or_eq_true _ _ |>.mp h with h | h
      · exact ⟨_, List.mem_cons_self, (beq_iff_eq.mp h).symm⟩
      · exact ⟨_, List.mem_cons_of_mem _ List.mem_cons_self, (beq_iff_eq.mp h).symm⟩
    · rintro ⟨r, hr, rfl⟩
      simp only [List.mem_cons, List.not_mem_nil, or_false] at hr
      rcases hr with rfl | rfl <;> rfl
  · intro r hr
    simp at hr
    rcases hr with rfl | rfl
    · funext d; norm_num
    · funext d; norm_num

/-- **C09 violated (rows not in ascending order).** The sparse reader assumes ascending alternative order and
nothing in the loading code sorts the rows: with the rows of a two-alternative case in descending order the
present, available alternative 0 gets utility `-inf`. -/
theorem C09_fails_unsorted (θ : Nat → ℝ) :
    (assemble θ (fun _ => false) 2 noTerms
      { plainCase 0 with ce := some [(1, fun _ => 0), (0, fun _ => 0)] }).U 0 = .ninf := by
  unfold assemble utilityCo utilityCa quantityCa
  simp only [noTerms, List.foldl_nil]
  unfold sparseLoop
  simp only [List.foldl_cons, List.foldl_nil, skipTo]
  simp

/-! ## C16 -/

theorem below_lt {T : Tree} (h : T.WF) {n c : Nat} (hb : Below T n c) : c < n := by
  induction hb with
  | single he => exact (h.edge _ he).1
  | tail _ he ih => exact lt_trans (h.edge _ he).1 ih

/-- **C16 (a).** After the cascade a nest is available exactly when some alternative below it is; the
alternatives' own flags are unchanged. -/
theorem C16_cascade_availability {T : Tree} (h : T.WF) (av : Nat → Bool) :
    (∀ a < T.nAlts, cascadeOr T av a = av a) ∧
    ∀ n, T.nAlts ≤ n → (cascadeOr T av n = true ↔ ∃ a < T.nAlts, Below T n a ∧ av a = true) := by
  refine ⟨fun a ha => cascadeOr_alt h av ha, ?_⟩
  intro n
  induction n using Nat.strong_induction_on with
  | _ n ih =>
    intro hn
    rw [cascadeOr_nest h av hn]
    constructor
    · rintro ⟨c, hc, hcc⟩
      have he := mem_kids.mp hc
      by_cases hca : c < T.nAlts
      · exact ⟨c, hca, .single he, by rwa [cascadeOr_alt h av hca] at hcc⟩
      · obtain ⟨a, ha, hb, haa⟩ := (ih c (h.kids_lt hc) (by omega)).mp hcc
        exact ⟨a, ha, (Relation.TransGen.single he).trans hb, haa⟩
    · rintro ⟨a, ha, hb, haa⟩
      rcases Relation.TransGen.head'_iff.mp hb with ⟨c, he, hrest⟩
      refine ⟨c, mem_kids.mpr he, ?_⟩
      rcases Relation.reflTransGen_iff_eq_or_transGen.mp hrest with heq | htr
      · subst heq; rw [cascadeOr_alt h av ha]; exact haa
      · have hcn : c < n := h.kids_lt (mem_kids.mpr he)
        have : T.nAlts ≤ c := by
          rcases Relation.TransGen.head'_iff.mp htr with ⟨x, hx, _⟩
          exact (h.edge _ hx).2.1
        exact (ih c hcn this).mpr ⟨a, ha, htr, haa⟩

/-- ancestors form a chain -/
theorem below_chain {T : Tree} (h : T.WF) {n c c' a : Nat} (h1 : (n, c) ∈ T.edges) (h2 : (n, c') ∈ T.edges)
    (hc : a = c ∨ Below T c a) (hc' : a = c' ∨ Below T c' a) : c = c' := by
  -- both ancestors are on the upward path from a
  have key : ∀ x y a, (a = x ∨ Below T x a) → (a = y ∨ Below T y a) → x = y ∨ Below T x y ∨ Below T y x := by
    intro x y a hx hy
    rcases hx with rfl | hx
    · rcases hy with rfl | hy
      · left; rfl
      · right; right; exact hy
    · induction hx generalizing y with
      | @single b he =>
        rcases hy with rfl | hy
        · right; left; exact .single he
        · rcases Relation.TransGen.tail'_iff.mp hy with ⟨z, hz, hzb⟩
          have : z = x := edge_parent_unique h hzb he
          subst this
          rcases Relation.reflTransGen_iff_eq_or_transGen.mp hz with heq | htr
          · left; exact heq
          · right; right; exact htr
      | @tail b d hxb he ih =>
        rcases hy with rfl | hy
        · right; left; exact hxb.tail he
        · rcases Relation.TransGen.tail'_iff.mp hy with ⟨z, hz, hzd⟩
          have : z = b := edge_parent_unique h hzd he
          subst this
          apply ih
          rcases Relation.reflTransGen_iff_eq_or_transGen.mp hz with heq | htr
          · left; exact heq
          · right; exact htr
  have no : ∀ c c', (n, c) ∈ T.edges → (n, c') ∈ T.edges → ¬ Below T c c' := by
    intro c c' h1 h2 hb
    rcases Relation.TransGen.tail'_iff.mp hb with ⟨z, hz, hzc⟩
    have : z = n := edge_parent_unique h hzc h2
    subst this
    have hlt := (h.edge _ h1).1
    simp only at hlt
    rcases Relation.reflTransGen_iff_eq_or_transGen.mp hz with heq | htr
    · omega
    · have := below_lt h htr; omega
  rcases key c c' a hc hc' with h0 | h0 | h0
  · exact h0
  · exact absurd h0 (no c c' h1 h2)
  · exact absurd h0 (no c' c h2 h1)

theorem cascadeSum_below {T : Tree} (h : T.WF) (ch : Nat → ℝ) : ∀ n,
    cascadeSum T ch n = ∑ a ∈ Finset.range T.nAlts, if a = n ∨ Below T n a then ch a else 0 := by
  intro n
  induction n using Nat.strong_induction_on with
  | _ n ih =>
    by_cases hn : n < T.nAlts
    · rw [cascadeSum_alt h ch hn, Finset.sum_eq_single n]
      · simp
      · intro b _ hb
        rw [if_neg]
        rintro (h1 | h1)
        · exact hb h1
        · rcases Relation.TransGen.head'_iff.mp h1 with ⟨x, hx, _⟩
          have := (h.edge _ hx).2.1
          simp only at this
          omega
      · intro h1; exact absurd (Finset.mem_range.mpr hn) h1
    · rw [cascadeSum_nest h ch (by omega)]
      have e1 : ((kids T n).map (cascadeSum T ch)).sum =
          ((kids T n).map (fun c => ∑ a ∈ Finset.range T.nAlts, if a = c ∨ Below T c a then ch a else 0)).sum := by
        congr 1
        apply List.map_congr_left
        intro c hc
        exact ih c (h.kids_lt hc)
      rw [e1, ← List.sum_toFinset _ (h.kids_nodup n), Finset.sum_comm]
      apply Finset.sum_congr rfl
      intro a ha
      have ha' : a < T.nAlts := Finset.mem_range.mp ha
      by_cases hb : Below T n a
      · rw [if_pos (Or.inr hb)]
        rcases Relation.TransGen.head'_iff.mp hb with ⟨c, he, hrest⟩
        have hca : a = c ∨ Below T c a := Relation.reflTransGen_iff_eq_or_transGen.mp hrest
        rw [Finset.sum_eq_single c]
        · rw [if_pos hca]
        · intro c' hc' hne
          rw [if_neg]
          intro hh
          exact hne (below_chain h (mem_kids.mp (List.mem_toFinset.mp hc')) he hh hca)
        · intro hh; exact absurd (List.mem_toFinset.mpr (mem_kids.mpr he)) hh
      · rw [if_neg (by rintro (h1 | h1); omega; exact hb h1)]
        apply Finset.sum_eq_zero
        intro c hc
        rw [if_neg]
        have he := mem_kids.mp (List.mem_toFinset.mp hc)
        rintro (rfl | h1)
        · exact hb (.single he)
        · exact hb ((Relation.TransGen.single he).trans h1)

/-- **C16 (b).** After the cascade the choice of a nest is the total choice of the alternatives below it, each
counted once; the alternatives' own choices are unchanged. -/
theorem C16_cascade_choice {T : Tree} (h : T.WF) (ch : Nat → ℝ) :
    (∀ a < T.nAlts, cascadeSum T ch a = ch a) ∧
    ∀ n, T.nAlts ≤ n → cascadeSum T ch n =
      ∑ a ∈ (Finset.range T.nAlts).filter (fun a => Below T n a), ch a := by
  refine ⟨fun a ha => cascadeSum_alt h ch ha, ?_⟩
  intro n hn
  rw [cascadeSum_below h ch n, Finset.sum_filter]
  apply Finset.sum_congr rfl
  intro a ha
  have : a ≠ n := by have := Finset.mem_range.mp ha; omega
  simp [this]

example := C16_cascade_choice demoTree_wf demoCase.ch
example := C16_cascade_availability demoTree_wf demoCase.av

/-- Concretely: the root of the demonstration tree collects the choice of alternative 0. -/
example : cascadeSum demoTree demoCase.ch 4 = 1 := by
  have h := demoTree_wf
  rw [cascadeSum_nest h _ (by decide), show kids demoTree 4 = [2, 3] by decide]
  simp only [List.map_cons, List.map_nil, List.sum_cons, List.sum_nil, add_zero]
  rw [cascadeSum_alt h _ (by decide), cascadeSum_nest h _ (show demoTree.nAlts ≤ 3 by decide),
    show kids demoTree 3 = [0, 1] by decide]
  simp only [List.map_cons, List.map_nil, List.sum_cons, List.sum_nil, add_zero]
  rw [cascadeSum_alt h _ (by decide), cascadeSum_alt h _ (by decide)]
  norm_num [demoCase]

end Larch.Props
