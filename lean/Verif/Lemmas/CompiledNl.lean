import Verif.Lemmas.CompiledNet

/-! The compiled nested/network logit kernel computes the network specification. -/

namespace Larch.Compiled

open Function Larch Larch.Kernel Larch.Spec
open scoped BigOperators
open Classical

section

variable {T : Tree} {A : Nat → Bool} {θ u : Nat → ℝ}

theorem muOf_nest {n : Nat} (hn : T.nAlts ≤ n) : muOf T θ n = muN T θ n := by
  unfold muOf muN
  rw [if_neg (by omega)]
  cases T.muSlot (n - T.nAlts) <;> rfl

theorem outEdges_eq (h : Network T) {n : Nat} (h1 : T.nAlts ≤ n) (h2 : n < T.nNodes) :
    outEdges T n = T.edges.filter (fun e => e.1 = n) := by
  obtain ⟨hl, hs⟩ := h.slots (n - T.nAlts) (by omega)
  have hn : T.nAlts + (n - T.nAlts) = n := by omega
  rw [hn] at hs
  unfold outEdges
  rw [← hs]
  apply List.ext_getElem?
  intro i
  simp only [List.getElem?_map, List.getElem?_take, List.getElem?_drop]
  by_cases hi : i < T.len (n - T.nAlts)
  · rw [if_pos hi, List.getElem?_range hi]
    simp only [Option.map_some]
    rw [List.getD_eq_getElem?_getD, List.getElem?_eq_getElem (by omega)]
    rfl
  · rw [if_neg hi, List.getElem?_eq_none (by simpa using hi)]
    rfl

theorem alpha_eq (h : Network T) (e : Nat × Nat) : alpha T e = (netOf T A).share e.1 e.2 := by
  unfold alpha
  rw [length_in h]
  rfl

theorem alpha_pos (h : Network T) {e : Nat × Nat} (he : e ∈ T.edges) : 0 < alpha T e := by
  rw [alpha_eq (A := fun _ => true) h]; exact share_pos h he

theorem logalpha_eq (h : Network T) (e : Nat × Nat) : logalpha T e = Real.log ((netOf T A).share e.1 e.2) := by
  unfold logalpha; rw [alpha_eq (A := A) h]

/-- the exponent of child `c` in nest `n` -/
noncomputable def expo (T : Tree) (mu : ℝ) (V : Nat → ℝ) (e : Nat × Nat) : ℝ := (logalpha T e + V e.2) / mu

theorem shift_inv (h : Network T) (up : Nat) {mu : ℝ} (hmu : mu ≠ 0) (av : Nat → Prop) (V : Nat → ℝ) (U : Arr)
    (es : List (Nat × Nat)) (hes : ∀ e ∈ es, e ∈ T.edges ∧ e.1 = up) (hU : ∀ e ∈ es, U e.2 = emb (av e.2) (V e.2)) :
    ∀ s : X × Option Nat, (∃ r, s.1 = .fin r ∧ ∀ d, s.2 = some d → r = expo T mu V (up, d)) →
      (∃ r, (es.foldl (shiftStep T mu U) s).1 = .fin r ∧
        ∀ d, (es.foldl (shiftStep T mu U) s).2 = some d → r = expo T mu V (up, d)) := by
  induction es with
  | nil => intro s hs; exact hs
  | cons e es ih =>
    intro s hs
    rw [List.foldl_cons]
    apply ih (fun x hx => hes x (List.mem_cons_of_mem _ hx)) (fun x hx => hU x (List.mem_cons_of_mem _ hx))
    obtain ⟨r, hr, hd⟩ := hs
    unfold shiftStep
    obtain ⟨he, heu⟩ := hes e List.mem_cons_self
    rw [hU e List.mem_cons_self]
    unfold emb
    by_cases ha : av e.2
    · rw [if_pos ha, if_pos (X.fin_gt_ninf _), if_pos (alpha_pos h he)]
      have hz : zOf T mu U e = .fin (expo T mu V e) := by
        unfold zOf expo
        rw [hU e List.mem_cons_self, emb, if_pos ha, X.fin_add, X.fin_div hmu]
      split_ifs with hg
      · refine ⟨_, hz, fun d hd => ?_⟩
        simp only [Option.some.injEq] at hd
        rw [← hd, ← heu]
      · exact ⟨r, hr, hd⟩
    · rw [if_neg ha, if_neg (X.not_ninf_gt _)]
      exact ⟨r, hr, hd⟩

theorem exp_loop (h : Network T) (up : Nat) {mu : ℝ} (hmu : mu ≠ 0) (av : Nat → Prop) (V : Nat → ℝ) (sh : X × Option Nat) (r : ℝ)
    (hr : sh.1 = .fin r) (hd : ∀ d, sh.2 = some d → r = expo T mu V (up, d))
    (es : List (Nat × Nat)) (hes : ∀ e ∈ es, e ∈ T.edges ∧ e.1 = up) :
    ∀ (U : Arr) (x : ℝ), (∀ e ∈ es, U e.2 = emb (av e.2) (V e.2)) → U up = .fin x →
      (es.foldl (expStep T up mu sh) U) up =
        .fin (x + (es.map (fun e => if av e.2 then Real.exp (expo T mu V e - r) else 0)).sum) ∧
      ∀ n ≠ up, (es.foldl (expStep T up mu sh) U) n = U n := by
  induction es with
  | nil => intro U x _ hx; simp [hx]
  | cons e es ih =>
    intro U x hU hx
    rw [List.foldl_cons, List.map_cons, List.sum_cons]
    obtain ⟨he, heu⟩ := hes e List.mem_cons_self
    have hne : ∀ e' ∈ e :: es, e'.2 ≠ up := by
      intro e' he'
      obtain ⟨g1, g2⟩ := hes e' he'
      have := (h.edge _ g1).1
      omega
    have key : expStep T up mu sh U e up = .fin (x + (if av e.2 then Real.exp (expo T mu V e - r) else 0)) ∧
        ∀ n ≠ up, expStep T up mu sh U e n = U n := by
      unfold expStep
      rw [hU e List.mem_cons_self]
      unfold emb
      by_cases ha : av e.2
      · simp only [ha, if_true]
        rw [if_pos (X.fin_gt_ninf _), if_pos (alpha_pos h he)]
        have hz : zOf T mu U e = .fin (expo T mu V e) := by
          unfold zOf expo
          rw [hU e List.mem_cons_self, emb, if_pos ha, X.fin_add, X.fin_div hmu]
        by_cases hq : sh.2 = some e.2
        · rw [if_pos hq]
          have := hd _ hq
          rw [← heu] at this
          rw [this, sub_self, Real.exp_zero]
          constructor
          · simp [addAt, hx, X.one_def]
          · intro n hn; simp [addAt, hn]
        · rw [if_neg hq, hz, hr, X.fin_sub, X.exp_fin]
          constructor
          · simp [addAt, hx]
          · intro n hn; simp [addAt, hn]
      · simp only [ha, if_false]
        rw [if_neg (X.not_ninf_gt _)]
        exact ⟨by rw [add_zero]; exact hx, fun _ _ => rfl⟩
    obtain ⟨k1, k2⟩ := key
    obtain ⟨i1, i2⟩ := ih (fun x hx => hes x (List.mem_cons_of_mem _ hx)) (expStep T up mu sh U e) _ (fun e' he' => by
      rw [k2 _ (hne e' (List.mem_cons_of_mem _ he'))]
      exact hU e' (List.mem_cons_of_mem _ he')) k1
    refine ⟨?_, fun n hn => (i2 n hn).trans (k2 n hn)⟩
    rw [i1, add_assoc]

theorem nestStep_spec (h : Network T) (U : Arr) (up : Nat) (h1 : T.nAlts ≤ up) (h2 : up < T.nNodes)
    (hmu : 0 < muN T θ up)
    (hU : ∀ n < up, U n = emb ((netOf T A).avail n) ((netOf T A).value (muN T θ) u n)) :
    nestStep T θ U up up = emb ((netOf T A).avail up) ((netOf T A).value (muN T θ) u up) ∧
      ∀ n ≠ up, nestStep T θ U up n = U n := by
  set V := (netOf T A).value (muN T θ) u with hV
  set av := (netOf T A).avail with hav
  have hm : muOf T θ up = muN T θ up := muOf_nest h1
  set mu := muN T θ up with hmu'
  have hm0 : mu ≠ 0 := ne_of_gt hmu
  set U0 := update U up 0 with hU0
  have hes : ∀ e ∈ outEdges T up, e ∈ T.edges ∧ e.1 = up := by
    rw [outEdges_eq h h1 h2]
    intro e he
    simpa using List.mem_filter.mp he
  have hU0' : ∀ e ∈ outEdges T up, U0 e.2 = emb (av e.2) (V e.2) := by
    intro e he
    obtain ⟨g1, g2⟩ := hes e he
    have := (h.edge _ g1).1
    rw [hU0, update_of_ne (by omega)]
    exact hU _ (by omega)
  set sh := (outEdges T up).foldl (shiftStep T mu U0) (.fin (-(10 ^ 100)), none) with hsh
  obtain ⟨r, hr, hd⟩ := shift_inv h up hm0 av V U0 (outEdges T up) hes hU0' (.fin (-(10 ^ 100)), none)
    ⟨_, rfl, fun d hd => by simp at hd⟩
  rw [← hsh] at hr hd
  obtain ⟨e1, e2⟩ := exp_loop h up hm0 av V sh r hr hd (outEdges T up) hes U0 0 hU0' (by rw [hU0, update_self]; rfl)
  have hdef : nestStep T θ U up = update ((outEdges T up).foldl (expStep T up mu sh) U0) up
      ((X.log ((outEdges T up).foldl (expStep T up mu sh) U0 up) + sh.1) * .fin mu) := by
    unfold nestStep
    simp only [hm]
    rfl
  rw [hdef]
  constructor
  · rw [update_self, e1, zero_add, hr, outEdges_eq h h1 h2]
    have hsum : ((T.edges.filter (fun e => e.1 = up)).map (fun e => if av e.2 then Real.exp (expo T mu V e - r) else 0)).sum =
        (netOf T A).denom (muN T θ) u up * Real.exp (-r) := by
      rw [sum_out h, net_denom h, Finset.sum_mul]
      apply Finset.sum_congr rfl
      intro c _
      by_cases he : (up, c) ∈ T.edges
      · by_cases ha : av c
        · rw [if_pos he, if_pos ha, if_pos ⟨he, ha⟩]
          unfold term expo
          rw [logalpha_eq (A := A) h, sub_eq_add_neg, Real.exp_add]
        · rw [if_pos he, if_neg ha, if_neg (fun hh => ha hh.2), zero_mul]
      · rw [if_neg he, if_neg (fun hh => he hh.1), zero_mul]
    rw [hsum]
    unfold emb
    by_cases ha : av up
    · have hp := net_denom_pos (mu := muN T θ) (u := u) h h1 ha
      rw [if_pos ha, X.log_fin (by positivity), X.fin_add, X.fin_mul, hV, net_value_nest h1,
        Real.log_mul (ne_of_gt hp) (ne_of_gt (Real.exp_pos _)), Real.log_exp]
      congr 1; ring
    · have hz : (netOf T A).denom (muN T θ) u up = 0 := by
        rw [net_denom h]
        apply Finset.sum_eq_zero
        intro c _
        rw [if_neg]
        rintro ⟨he, hc⟩
        exact ha (net_avail_parent h he hc)
      rw [if_neg ha, hz, zero_mul, X.log_zero, X.ninf_add_fin]
      show X.mul _ _ = _
      simp [X.mul, X.infSign, hmu]
  · intro n hn
    rw [update_of_ne hn, e2 n hn, hU0, update_of_ne hn]

theorem upPass_value (h : Network T) (U : Arr) (hmu : ∀ n, T.nAlts ≤ n → n < T.nNodes → 0 < muN T θ n)
    (hU : ∀ a < T.nAlts, U a = emb (A a = true) (u a)) :
    ∀ n < T.nNodes, upPass T θ U n = emb ((netOf T A).avail n) ((netOf T A).value (muN T θ) u n) := by
  have key : ∀ k, T.nAlts + k ≤ T.nNodes → ∀ n < T.nAlts + k, (List.range' T.nAlts k).foldl (nestStep T θ) U n =
      emb ((netOf T A).avail n) ((netOf T A).value (muN T θ) u n) := by
    intro k
    induction k with
    | zero =>
      intro _ n hn
      simp only [List.range'_zero, List.foldl_nil]
      rw [hU n hn, net_value_alt hn]
      unfold emb
      by_cases ha : A n = true
      · rw [if_pos ha, if_pos ((net_avail_alt hn).mpr ha)]
      · rw [if_neg ha, if_neg (fun hh => ha ((net_avail_alt hn).mp hh))]
    | succ k ih =>
      intro hk n hn
      rw [List.range'_1_concat, List.foldl_append, List.foldl_cons, List.foldl_nil]
      obtain ⟨s1, s2⟩ := nestStep_spec (A := A) (u := u) h ((List.range' T.nAlts k).foldl (nestStep T θ) U) (T.nAlts + k)
        (by omega) (by omega) (hmu _ (by omega) (by omega)) (fun n hn => ih (by omega) n hn)
      by_cases hn' : n = T.nAlts + k
      · rw [hn']; exact s1
      · rw [s2 n hn']; exact ih (by omega) n (by omega)
  intro n hn
  have := h.root
  exact key (T.nNodes - T.nAlts) (by omega) n (by omega)

/-! ### Conditional probabilities -/

theorem condLog_eq (h : Network T) (U : Arr) (V : Nat → ℝ) (hmu : ∀ n, T.nAlts ≤ n → n < T.nNodes → 0 < muN T θ n)
    (hU : ∀ n < T.nNodes, U n = emb ((netOf T A).avail n) (V n)) {e : Nat × Nat} (he : e ∈ T.edges) :
    condLog T θ U e = emb ((netOf T A).avail e.2) ((logalpha T e + V e.2 - V e.1) / muN T θ e.1) := by
  have hlt := h.edge _ he
  have hm := hmu e.1 hlt.2.1 hlt.2.2
  have hm0 := ne_of_gt hm
  have hp := hU e.1 hlt.2.2
  have hc := hU e.2 (by omega)
  unfold condLog
  simp only [muOf_nest hlt.2.1]
  rw [hp, hc]
  unfold emb
  by_cases ha : (netOf T A).avail e.2
  · have hpa := net_avail_parent h (p := e.1) (c := e.2) he ha
    simp only [ha, hpa, if_true]
    rw [if_neg (show ¬ (X.fin (V e.1) = X.ninf) by intro hh; cases hh), if_pos hm0, X.fin_sub, X.fin_div hm0]
    by_cases h1 : alpha T e = 1
    · rw [if_neg (not_not.mpr h1)]
      have : logalpha T e = 0 := by unfold logalpha; rw [h1, Real.log_one]
      rw [this, zero_add]
    · rw [if_pos h1, X.fin_div hm0, X.fin_add]
      congr 1; ring
  · simp only [ha, if_false]
    by_cases hpa : (netOf T A).avail e.1
    · simp only [hpa, if_true]
      rw [if_neg (show ¬ (X.fin (V e.1) = X.ninf) by intro hh; cases hh), if_pos hm0]
      have : ((X.ninf - X.fin (V e.1)) / X.fin (muN T θ e.1)) = X.ninf := by
        show X.div (X.add .ninf (X.neg (.fin (V e.1)))) _ = _
        simp [X.add, X.neg, X.div, not_lt.mpr hm.le]
      rw [this]
      split_ifs
      · rw [X.fin_div hm0]; rfl
      · rfl
    · simp only [hpa, if_false, if_true]
      split_ifs
      · rw [X.fin_div hm0]; rfl
      · rfl

/-! ### Accumulating along edges -/

/-- Fold over the edges of an acyclic graph in an order in which a node is complete before it is read. -/
theorem dag_fold {α β : Type} (src tgt : β → Nat) (f : β → α → α → α) (l : List β)
    (hl : l.Pairwise (fun a b => tgt b ≠ src a)) (hs : ∀ e ∈ l, tgt e ≠ src e) :
    ∀ (P0 : Nat → α) (n : Nat), l.foldl (fun P e => update P (tgt e) (f e (P (tgt e)) (P (src e)))) P0 n =
      (l.filter (fun e => tgt e = n)).foldl (fun x e => f e x
        (l.foldl (fun P e => update P (tgt e) (f e (P (tgt e)) (P (src e)))) P0 (src e))) (P0 n) := by
  induction l with
  | nil => intro P0 n; rfl
  | cons e l ih =>
    intro P0 n
    rw [List.pairwise_cons] at hl
    have ih' := ih hl.2 (fun x hx => hs x (List.mem_cons_of_mem _ hx))
    have hs0 := hs e List.mem_cons_self
    set P1 := update P0 (tgt e) (f e (P0 (tgt e)) (P0 (src e))) with hP1
    simp only [List.foldl_cons]
    rw [← hP1]
    set F := l.foldl (fun P e => update P (tgt e) (f e (P (tgt e)) (P (src e)))) P1 with hF
    have hsrc : F (src e) = P0 (src e) := by
      rw [hF, ih' P1 (src e)]
      have : l.filter (fun x => tgt x = src e) = [] := by
        rw [List.filter_eq_nil_iff]
        intro x hx
        simpa using hl.1 x hx
      rw [this, List.foldl_nil, hP1, update_of_ne hs0.symm]
    have h1 := ih' P1 n
    rw [← hF] at h1
    rw [h1]
    by_cases hn : tgt e = n
    · rw [List.filter_cons_of_pos (by simpa using hn), List.foldl_cons, hsrc]
      subst hn
      rw [hP1, update_self]
    · rw [List.filter_cons_of_neg (by simpa using hn), hP1, update_of_ne (fun hh => hn hh.symm)]

theorem rev_order (h : Network T) : T.edges.reverse.Pairwise (fun a b => b.2 ≠ a.1) := by
  rw [List.pairwise_reverse]
  have : T.edges.Pairwise (fun a b => a.1 ≤ b.1 ∧ a.2 < a.1) := by
    rw [List.pairwise_and_iff]
    refine ⟨h.sorted, ?_⟩
    rw [List.pairwise_iff_forall_sublist]
    intro a b hab
    exact (h.edge a (hab.subset (by simp))).1
  exact this.imp (fun hab => by omega)

theorem fold_add_real {β : Type} (l : List β) (f : X → β → X) (g : β → ℝ) (hf : ∀ e ∈ l, ∀ r, f (.fin r) e = .fin (r + g e)) :
    ∀ r, l.foldl f (.fin r) = .fin (r + (l.map g).sum) := by
  induction l with
  | nil => intro r; simp
  | cons e l ih =>
    intro r
    rw [List.foldl_cons, hf e List.mem_cons_self, ih (fun x hx => hf x (List.mem_cons_of_mem _ hx)), List.map_cons, List.sum_cons,
      add_assoc]

theorem probPass_value (h : Network T) (cl : Nat × Nat → X) (hmu : ∀ n, T.nAlts ≤ n → n < T.nNodes → 0 < muN T θ n)
    (hcl : ∀ e ∈ T.edges, cl e = emb ((netOf T A).avail e.2)
      ((logalpha T e + (netOf T A).value (muN T θ) u e.2 - (netOf T A).value (muN T θ) u e.1) / muN T θ e.1)) :
    ∀ n < T.nNodes, probPass T cl n = .fin ((netOf T A).prob (muN T θ) u n) := by
  have hroot := h.root
  set f : Nat × Nat → X → X → X := fun e x y => if y ≠ 0 then x + X.exp (cl e) * y else x with hf
  have hdef : probPass T cl = T.edges.reverse.foldl (fun P e => update P e.2 (f e (P e.2) (P e.1)))
      (update (fun _ => 0) (T.nNodes - 1) 1) := by
    unfold probPass
    congr 1
    funext P e
    simp only [hf]
    split_ifs
    · rfl
    · rw [update_eq_self]
  have hfold := dag_fold (fun e : Nat × Nat => e.1) (fun e => e.2) f T.edges.reverse (rev_order h) (by
    intro e he
    have := h.edge e (by simpa using he); omega) (update (fun _ => 0) (T.nNodes - 1) 1)
  rw [← hdef] at hfold
  refine net_down h ?_ ?_
  · rw [hfold, net_prob_root h]
    have : T.edges.reverse.filter (fun e => e.2 = T.nNodes - 1) = [] := by
      rw [List.filter_eq_nil_iff]
      intro x hx
      have := h.edge x (by simpa using hx)
      simp only [decide_eq_true_eq]; omega
    rw [this, List.foldl_nil, update_self]; rfl
  · intro n hn ih
    rw [hfold, update_of_ne (by omega)]
    have hstep : ∀ e ∈ T.edges.reverse.filter (fun e => e.2 = n), ∀ r : ℝ, f e (.fin r) (probPass T cl e.1) =
        .fin (r + if (netOf T A).avail n then (netOf T A).prob (muN T θ) u e.1 * (netOf T A).cond (muN T θ) u e.1 n else 0) := by
      rintro ⟨p, c⟩ he r
      simp only [List.mem_filter, List.mem_reverse, decide_eq_true_eq] at he
      obtain ⟨he, rfl⟩ := he
      have hlt := edge_lt h he
      simp only [hf]
      rw [ih p he, hcl _ he]
      simp only
      by_cases h0 : (netOf T A).prob (muN T θ) u p = 0
      · rw [if_neg (by rw [h0]; exact not_not.mpr rfl), h0]
        congr 1
        split_ifs <;> ring
      · rw [if_pos (fun hh => h0 (by injection hh))]
        unfold emb
        by_cases ha : (netOf T A).avail c
        · rw [if_pos ha, if_pos ha, X.exp_fin, X.fin_mul, X.fin_add, logalpha_eq (A := A) h]
          simp only
          rw [net_cond_log h hlt.2.1 (net_avail_parent h he ha) (ne_of_gt (hmu p hlt.2.1 hlt.2.2))]
          congr 1; ring
        · rw [if_neg ha, if_neg ha, X.exp_ninf, X.fin_mul, X.fin_add]
          congr 1; ring
    rw [X.zero_def, fold_add_real _ _ _ hstep, zero_add, net_prob h hn]
    congr 1
    rw [List.filter_reverse, List.map_reverse, List.sum_reverse,
      sum_in h n (fun e => if (netOf T A).avail n then (netOf T A).prob (muN T θ) u e.1 * (netOf T A).cond (muN T θ) u e.1 n else 0)]
    split_ifs with ha
    · rfl
    · apply Finset.sum_eq_zero; intro p _; split_ifs <;> rfl

end

end Larch.Compiled
