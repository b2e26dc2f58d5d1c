import Verif.Lemmas.KernelUp
import Verif.Spec.Choice

namespace Larch.Kernel

open Function Larch Larch.Spec
open scoped BigOperators
open Classical

@[simp] theorem shapeOf_nAlts (T : Tree) (av : Nat → Bool) : (shapeOf T av).nAlts = T.nAlts := rfl
@[simp] theorem shapeOf_nNodes (T : Tree) (av : Nat → Bool) : (shapeOf T av).nNodes = T.nNodes := rfl
@[simp] theorem shapeOf_child (T : Tree) (av : Nat → Bool) (p c : Nat) :
    (shapeOf T av).child p c ↔ (p, c) ∈ T.edges := Iff.rfl

/-! ### sums over children -/

theorem sum_kids {T : Tree} (h : T.WF) (n : Nat) (f : Nat → ℝ) :
    ((kids T n).map f).sum = ∑ c : Fin n, if (n, (c : Nat)) ∈ T.edges then f c else 0 := by
  have h1 : ((kids T n).map f).sum = ∑ c ∈ (kids T n).toFinset, f c := by
    rw [List.sum_toFinset _ (h.kids_nodup n)]
  rw [h1, Fin.sum_univ_eq_sum_range (fun c => if (n, c) ∈ T.edges then f c else 0) n,
    ← Finset.sum_filter]
  congr 1
  ext c
  simp only [List.mem_toFinset, Finset.mem_filter, Finset.mem_range]
  constructor
  · intro hc; exact ⟨h.kids_lt hc, mem_kids.mp hc⟩
  · rintro ⟨_, hc⟩; exact mem_kids.mpr hc

/-! ### generic accumulation over edges -/

/-- Accumulating child values into parents, edge by edge, equals folding over the children's final values. -/
theorem acc_fold {α : Type} (f : Nat × Nat → α → α → α) (edges : List (Nat × Nat))
    (hs : edges.Pairwise (fun a b => a.1 ≤ b.1)) (hlt : ∀ e ∈ edges, e.2 < e.1) (a0 : Nat → α) :
    ∀ n, (edges.foldl (fun a e => update a e.1 (f e (a e.1) (a e.2))) a0) n =
      (edges.filter (fun e => e.1 = n)).foldl
        (fun x e => f e x ((edges.foldl (fun a e => update a e.1 (f e (a e.1) (a e.2))) a0) e.2)) (a0 n) := by
  induction edges using List.reverseRecOn with
  | nil => intro n; rfl
  | append_singleton l e ih =>
    have hs' := (List.pairwise_append.mp hs)
    have ih' := ih hs'.1 (fun x hx => hlt x (List.mem_append_left _ hx))
    have hle : ∀ x ∈ l, x.1 ≤ e.1 := fun x hx => hs'.2.2 x hx e (by simp)
    have he := hlt e (by simp)
    intro n
    rw [List.foldl_append, List.filter_append]
    simp only [List.foldl_cons, List.foldl_nil]
    set A := l.foldl (fun a e => update a e.1 (f e (a e.1) (a e.2))) a0 with hA
    have hcongr : ∀ (xs : List (Nat × Nat)), (∀ x ∈ xs, x.2 ≠ e.1) → ∀ z,
        xs.foldl (fun x e' => f e' x (update A e.1 (f e (A e.1) (A e.2)) e'.2)) z =
        xs.foldl (fun x e' => f e' x (A e'.2)) z := by
      intro xs
      induction xs with
      | nil => intros; rfl
      | cons x xs ihx =>
        intro hx z
        rw [List.foldl_cons, List.foldl_cons, update_of_ne (hx x List.mem_cons_self),
          ihx (fun y hy => hx y (List.mem_cons_of_mem _ hy))]
    have hne : ∀ x ∈ l.filter (fun e => e.1 = n), x.2 ≠ e.1 := by
      intro x hx
      have hxl := (List.mem_filter.mp hx).1
      have := hle x hxl
      have := hlt x (List.mem_append_left _ hxl)
      omega
    by_cases hn : e.1 = n
    · subst hn
      rw [update_self]
      simp only [List.filter_cons, decide_true, if_true, List.filter_nil, List.foldl_append,
        List.foldl_cons, List.foldl_nil]
      rw [hcongr _ hne, update_of_ne (by omega), ← ih' e.1]
    · rw [update_of_ne (fun h => hn h.symm)]
      have hnil : List.filter (fun e => decide (e.1 = n)) [e] = [] := by simp [hn]
      rw [hnil, List.append_nil, hcongr _ hne]
      exact ih' n

/-! ### cascades -/

theorem foldl_or (l : List Nat) (g : Nat → Bool) : ∀ b, l.foldl (fun x c => x || g c) b = true ↔
    b = true ∨ ∃ c ∈ l, g c = true := by
  induction l with
  | nil => intro b; simp
  | cons c l ih =>
    intro b
    rw [List.foldl_cons, ih]
    simp only [Bool.or_eq_true, List.mem_cons, exists_eq_or_imp, or_assoc]

theorem foldl_kids {α : Type} (T : Tree) (n : Nat) (g : α → Nat → α) (z : α) :
    (T.edges.filter (fun e => e.1 = n)).foldl (fun x e => g x e.2) z = (kids T n).foldl g z := by
  unfold kids; rw [List.foldl_map]

theorem kids_alt {T : Tree} (h : T.WF) {a : Nat} (ha : a < T.nAlts) : kids T a = [] := by
  rw [List.eq_nil_iff_forall_not_mem]
  intro c hc
  have := h.edge _ (mem_kids.mp hc)
  simp only at this; omega

theorem cascadeOr_eq {T : Tree} (h : T.WF) (av : Nat → Bool) (n : Nat) :
    cascadeOr T av n = (kids T n).foldl (fun x c => x || cascadeOr T av c)
      (if n < T.nAlts then av n else false) := by
  have := acc_fold (fun _ x y => x || y) T.edges h.sorted (fun e he => (h.edge e he).1)
    (fun i => if i < T.nAlts then av i else false) n
  unfold cascadeOr
  rw [this, foldl_kids T n (fun x c => x || (List.foldl (fun a e => update a e.1 (a e.1 || a e.2))
    (fun i => if i < T.nAlts then av i else false) T.edges c))]

theorem cascadeOr_alt {T : Tree} (h : T.WF) (av : Nat → Bool) {a : Nat} (ha : a < T.nAlts) :
    cascadeOr T av a = av a := by
  rw [cascadeOr_eq h, kids_alt h ha]; simp [ha]

theorem cascadeOr_nest {T : Tree} (h : T.WF) (av : Nat → Bool) {n : Nat} (hn : T.nAlts ≤ n) :
    cascadeOr T av n = true ↔ ∃ c ∈ kids T n, cascadeOr T av c = true := by
  rw [cascadeOr_eq h, foldl_or]
  simp [show ¬ n < T.nAlts by omega]

theorem cascadeOr_avail {T : Tree} (h : T.WF) (av : Nat → Bool) (n : Nat) :
    cascadeOr T av n = true ↔ (shapeOf T av).avail n := by
  induction n using Nat.strong_induction_on with
  | _ n ih =>
    rw [Shape.avail]
    by_cases hn : n < T.nAlts
    · rw [cascadeOr_alt h av hn]; simp [shapeOf, hn]
    · rw [cascadeOr_nest h av (by omega)]
      simp only [shapeOf, hn, if_false]
      constructor
      · rintro ⟨c, hc, hav⟩
        exact ⟨⟨c, h.kids_lt hc⟩, mem_kids.mp hc, (ih c (h.kids_lt hc)).mp hav⟩
      · rintro ⟨c, hc, hav⟩
        exact ⟨c, mem_kids.mpr hc, (ih c c.2).mpr hav⟩

theorem foldl_add (l : List Nat) (g : Nat → ℝ) : ∀ b, l.foldl (fun x c => x + g c) b = b + (l.map g).sum := by
  induction l with
  | nil => intro b; simp
  | cons c l ih => intro b; rw [List.foldl_cons, ih]; simp [add_assoc]

theorem cascadeSum_eq {T : Tree} (h : T.WF) (ch : Nat → ℝ) (n : Nat) :
    cascadeSum T ch n = (if n < T.nAlts then ch n else 0) + ((kids T n).map (cascadeSum T ch)).sum := by
  have := acc_fold (fun _ x y => x + y) T.edges h.sorted (fun e he => (h.edge e he).1)
    (fun i => if i < T.nAlts then ch i else 0) n
  rw [← foldl_add]
  unfold cascadeSum
  rw [this, foldl_kids T n (fun x c => x + (List.foldl (fun a e => update a e.1 (a e.1 + a e.2))
    (fun i => if i < T.nAlts then ch i else 0) T.edges c))]

theorem cascadeSum_alt {T : Tree} (h : T.WF) (ch : Nat → ℝ) {a : Nat} (ha : a < T.nAlts) :
    cascadeSum T ch a = ch a := by
  rw [cascadeSum_eq h, kids_alt h ha]; simp [ha]

theorem cascadeSum_nest {T : Tree} (h : T.WF) (ch : Nat → ℝ) {n : Nat} (hn : T.nAlts ≤ n) :
    cascadeSum T ch n = ((kids T n).map (cascadeSum T ch)).sum := by
  rw [cascadeSum_eq h]; simp [show ¬ n < T.nAlts by omega]

/-! ### utilities of nests are logsums -/

theorem value_nest {T : Tree} (h : T.WF) (av : Nat → Bool) (mu u : Nat → ℝ) {n : Nat} (hn : T.nAlts ≤ n) :
    (shapeOf T av).value mu u n = mu n * Real.log ((kids T n).map (fun c =>
      if (shapeOf T av).avail c then Real.exp ((shapeOf T av).value mu u c / mu n) else 0)).sum := by
  rw [Shape.value, sum_kids h]
  rw [if_neg (show ¬ n < (shapeOf T av).nAlts by simp; omega)]
  congr 3
  ext c
  by_cases h1 : (n, (c : Nat)) ∈ T.edges <;> simp [h1]

theorem value_alt {T : Tree} (av : Nat → Bool) (mu u : Nat → ℝ) {n : Nat} (hn : n < T.nAlts) :
    (shapeOf T av).value mu u n = u n := by
  rw [Shape.value]; simp [shapeOf, hn]

theorem denom_eq {T : Tree} (h : T.WF) (av : Nat → Bool) (mu u : Nat → ℝ) (n : Nat) :
    (shapeOf T av).denom mu u n = ((kids T n).map (fun c =>
      if (shapeOf T av).avail c then Real.exp ((shapeOf T av).value mu u c / mu n) else 0)).sum := by
  rw [sum_kids h]
  unfold Shape.denom
  congr 1
  ext c
  by_cases h1 : (n, (c : Nat)) ∈ T.edges <;> simp [h1]

theorem avail_nest {T : Tree} (h : T.WF) (av : Nat → Bool) {n : Nat} (hn : T.nAlts ≤ n) :
    (shapeOf T av).avail n ↔ ∃ c ∈ kids T n, (shapeOf T av).avail c := by
  rw [← cascadeOr_avail h, cascadeOr_nest h av hn]
  simp only [cascadeOr_avail h]

theorem avail_alt {T : Tree} (av : Nat → Bool) {a : Nat} (ha : a < T.nAlts) :
    (shapeOf T av).avail a ↔ av a = true := by
  rw [Shape.avail]; simp [shapeOf, ha]

theorem upPass_value {T : Tree} (h : T.WF) (θ : Nat → ℝ) (U : Arr) (av : Nat → Bool) (u : Nat → ℝ)
    (hmu : ∀ k, T.nAlts + k < T.nNodes → 0 < muOf T θ k)
    (hU : ∀ a < T.nAlts, U a = emb (av a = true) (u a))
    (h0 : ∀ n, T.nAlts ≤ n → n < T.nNodes → U n = .fin 0) :
    ∀ n < T.nNodes, upPass T θ U n =
      emb ((shapeOf T av).avail n) ((shapeOf T av).value (muN T θ) u n) := by
  refine upPass_nest h θ U _ _ hmu ?_ h0 ?_ ?_
  · intro a ha
    rw [hU a ha, value_alt av _ _ ha]
    simp only [emb, avail_alt av ha]
  · intro n h1 _; exact avail_nest h av h1
  · intro n h1 _; exact value_nest h av _ _ h1

theorem denom_pos {T : Tree} (h : T.WF) (av : Nat → Bool) (mu u : Nat → ℝ) {n : Nat} (hn : T.nAlts ≤ n)
    (ha : (shapeOf T av).avail n) : 0 < (shapeOf T av).denom mu u n := by
  rw [denom_eq h]
  obtain ⟨d, hd, had⟩ := (avail_nest h av hn).mp ha
  have hle : ∀ x ∈ (kids T n).map (fun c =>
      if (shapeOf T av).avail c then Real.exp ((shapeOf T av).value mu u c / mu n) else 0), 0 ≤ x := by
    intro x hx
    obtain ⟨c, _, rfl⟩ := List.mem_map.mp hx
    split_ifs <;> positivity
  have := List.single_le_sum hle _ (List.mem_map.mpr ⟨d, hd, rfl⟩)
  simp only [had, if_true] at this
  exact lt_of_lt_of_le (Real.exp_pos _) this

theorem value_nest' {T : Tree} (h : T.WF) (av : Nat → Bool) (mu u : Nat → ℝ) {n : Nat} (hn : T.nAlts ≤ n) :
    (shapeOf T av).value mu u n = mu n * Real.log ((shapeOf T av).denom mu u n) := by
  rw [value_nest h av mu u hn, denom_eq h]

/-- conditional probability in log form = ratio form -/
theorem cond_ratio {T : Tree} (h : T.WF) (av : Nat → Bool) (mu u : Nat → ℝ) {p c : Nat} (hn : T.nAlts ≤ p)
    (ha : (shapeOf T av).avail p) (hmu : mu p ≠ 0) :
    Real.exp (((shapeOf T av).value mu u c - (shapeOf T av).value mu u p) / mu p) =
      Real.exp ((shapeOf T av).value mu u c / mu p) / (shapeOf T av).denom mu u p := by
  have hd := denom_pos h av mu u hn ha
  rw [sub_div, Real.exp_sub, value_nest' h av mu u hn, mul_div_cancel_left₀ _ hmu, Real.exp_log hd]

/-! ### log probabilities -/

theorem edge_parent_unique {T : Tree} (h : T.WF) {p p' c : Nat} (h1 : (p, c) ∈ T.edges)
    (h2 : (p', c) ∈ T.edges) : p = p' := by
  have key : ∀ (l : List (Nat × Nat)), (l.map Prod.snd).Nodup → (p, c) ∈ l → (p', c) ∈ l → p = p' := by
    intro l
    induction l with
    | nil => intro _ h; simp at h
    | cons e l ih =>
      intro hnd h1 h2
      simp only [List.map_cons, List.nodup_cons, List.mem_map] at hnd
      rcases List.mem_cons.mp h1 with e1 | e1 <;> rcases List.mem_cons.mp h2 with e2 | e2
      · rw [← e1] at e2; exact (congrArg Prod.fst e2).symm
      · exact absurd ⟨_, e2, by rw [← e1]⟩ hnd.1
      · exact absurd ⟨_, e1, by rw [← e2]⟩ hnd.1
      · exact ih hnd.2 e1 e2
  exact key _ h.oneParent h1 h2

theorem avail_parent {T : Tree} (h : T.WF) (av : Nat → Bool) {p c : Nat} (he : (p, c) ∈ T.edges)
    (ha : (shapeOf T av).avail c) : (shapeOf T av).avail p :=
  (avail_nest h av (h.edge _ he).2.1).mpr ⟨c, mem_kids.mpr he, ha⟩

theorem edgeLogprob_eq {T : Tree} (h : T.WF) (θ : Nat → ℝ) (U : Arr) (av : Nat → Bool) (V : Nat → ℝ)
    (hmu : ∀ k, T.nAlts + k < T.nNodes → 0 < muOf T θ k)
    (hU : ∀ n < T.nNodes, U n = emb ((shapeOf T av).avail n) (V n))
    {p c : Nat} (he : (p, c) ∈ T.edges) :
    edgeLogprob T θ U (p, c) = emb ((shapeOf T av).avail c) ((V c - V p) / muN T θ p) := by
  have hp := h.edge _ he
  simp only at hp
  have hm : 0 < muOf T θ (p - T.nAlts) := hmu _ (by omega)
  unfold edgeLogprob
  rw [show muN T θ p = muOf T θ (p - T.nAlts) from rfl]
  simp only
  rw [hU p (by omega), hU c (by omega)]
  by_cases hc : (shapeOf T av).avail c
  · have hpa := avail_parent h av he hc
    simp only [emb, hpa, hc, if_true, X.not_isNinf_fin, if_false]
    rw [X.fin_sub, X.fin_div (ne_of_gt hm)]
  · by_cases hpa : (shapeOf T av).avail p
    · simp only [emb, hpa, hc, if_true, X.not_isNinf_fin, if_false]
      show X.div (X.ninf + -X.fin _) _ = _
      simp only [X.fin_neg, X.ninf_add_fin]
      simp [X.div, not_lt.mpr hm.le]
    · simp [emb, hpa, hc]

/-- value of a fold of point updates with distinct keys -/
theorem foldl_update_key {α β : Type} (key : β → Nat) (val : β → α) (l : List β) :
    (l.map key).Nodup → ∀ s : Nat → α,
      (∀ e ∈ l, (l.foldl (fun s e => update s (key e) (val e)) s) (key e) = val e) ∧
      (∀ n, n ∉ l.map key → (l.foldl (fun s e => update s (key e) (val e)) s) n = s n) := by
  induction l with
  | nil => intro _ s; simp
  | cons a l ih =>
    intro hnd s
    simp only [List.map_cons, List.nodup_cons] at hnd
    obtain ⟨i1, i2⟩ := ih hnd.2 (update s (key a) (val a))
    constructor
    · intro e he
      rw [List.foldl_cons]
      rcases List.mem_cons.mp he with rfl | he
      · rw [i2 _ hnd.1, update_self]
      · exact i1 e he
    · intro n hn
      simp only [List.map_cons, List.mem_cons, not_or] at hn
      rw [List.foldl_cons, i2 n hn.2, update_of_ne hn.1]

theorem logprobPass_fst (T : Tree) (θ : Nat → ℝ) (U : Arr) (ch : Nat → ℝ) (wt : ℝ) (lp0 : Arr) :
    (logprobPass T θ U ch wt lp0).1 =
      T.edges.foldl (fun s e => update s e.2 (edgeLogprob T θ U e)) lp0 := by
  unfold logprobPass
  generalize (0 : X) = x
  generalize T.edges = l
  induction l generalizing lp0 x with
  | nil => rfl
  | cons e l ih =>
    rw [List.foldl_cons, List.foldl_cons]
    unfold logprobStep at ih ⊢
    simp only at ih ⊢
    rw [ih]

theorem logprobPass_snd (T : Tree) (θ : Nat → ℝ) (U : Arr) (ch : Nat → ℝ) (wt : ℝ) (lp0 : Arr) :
    (logprobPass T θ U ch wt lp0).2 =
      T.edges.foldl (fun x e => if ch e.2 ≠ 0 then
        x + edgeLogprob T θ U e * .fin (ch e.2) * .fin wt else x) 0 := by
  unfold logprobPass
  generalize (0 : X) = x
  generalize T.edges = l
  induction l generalizing lp0 x with
  | nil => rfl
  | cons e l ih =>
    rw [List.foldl_cons, List.foldl_cons]
    unfold logprobStep at ih ⊢
    simp only [update_self] at ih ⊢
    rw [ih]

theorem logprobPass_at {T : Tree} (h : T.WF) (θ : Nat → ℝ) (U : Arr) (ch : Nat → ℝ) (wt : ℝ) (lp0 : Arr)
    {p c : Nat} (he : (p, c) ∈ T.edges) :
    (logprobPass T θ U ch wt lp0).1 c = edgeLogprob T θ U (p, c) := by
  rw [logprobPass_fst]
  exact (foldl_update_key Prod.snd (edgeLogprob T θ U) T.edges h.oneParent lp0).1 (p, c) he

/-! ### probabilities -/

/-- Downward recursion over reversed edges. -/
theorem down_fold {α : Type} (f : Nat × Nat → α → α → α) (edges : List (Nat × Nat))
    (hs : edges.Pairwise (fun a b => a.1 ≤ b.1)) (hlt : ∀ e ∈ edges, e.2 < e.1)
    (hnd : (edges.map Prod.snd).Nodup) (s0 : Nat → α) :
    let A := edges.reverse.foldl (fun s e => update s e.2 (f e (s e.1) (s e.2))) s0
    (∀ e ∈ edges, A e.2 = f e (A e.1) (s0 e.2)) ∧ (∀ n, n ∉ edges.map Prod.snd → A n = s0 n) := by
  induction edges with
  | nil => simp
  | cons e l ih =>
    simp only [List.map_cons, List.nodup_cons] at hnd
    have hs' := List.pairwise_cons.mp hs
    obtain ⟨i1, i2⟩ := ih hs'.2 (fun x hx => hlt x (List.mem_cons_of_mem _ hx)) hnd.2
    simp only [List.reverse_cons, List.foldl_append, List.foldl_cons, List.foldl_nil]
    set A := l.reverse.foldl (fun s e => update s e.2 (f e (s e.1) (s e.2))) s0
    have he := hlt e List.mem_cons_self
    constructor
    · intro x hx
      rcases List.mem_cons.mp hx with rfl | hx
      · rw [update_self, update_of_ne (by omega), i2 _ hnd.1]
      · have h1 : x.2 ≠ e.2 := fun h => hnd.1 (by rw [← h]; exact List.mem_map.mpr ⟨x, hx, rfl⟩)
        have h2 : x.1 ≠ e.2 := by
          have := hs'.1 x hx; omega
        rw [update_of_ne h1, update_of_ne h2]
        exact i1 x hx
    · intro n hn
      simp only [List.map_cons, List.mem_cons, not_or] at hn
      rw [update_of_ne hn.1]
      exact i2 n hn.2

theorem Tree.WF.root_not_child {T : Tree} (h : T.WF) : T.nNodes - 1 ∉ T.edges.map Prod.snd := by
  intro hm
  obtain ⟨e, he, h1⟩ := List.mem_map.mp hm
  have := h.edge e he
  omega

theorem probPass_eq {T : Tree} (h : T.WF) (av : Nat → Bool) (cond pr0 : Arr) :
    (∀ p c, (p, c) ∈ T.edges → probPass T av cond pr0 c =
      if av c then probPass T av cond pr0 p * cond c else 0) ∧
    probPass T av cond pr0 (T.nNodes - 1) = 1 := by
  have key := down_fold (fun e x _ => if av e.2 then x * cond e.2 else (0 : X)) T.edges h.sorted
    (fun e he => (h.edge e he).1) h.oneParent (update pr0 (T.nNodes - 1) 1)
  have heq : probPass T av cond pr0 = T.edges.reverse.foldl
      (fun s e => update s e.2 (if av e.2 then s e.1 * cond e.2 else (0 : X)))
      (update pr0 (T.nNodes - 1) 1) := by
    unfold probPass
    congr 1
    funext P e
    by_cases ha : av e.2 <;> simp [ha]
  rw [heq]
  refine ⟨fun p c he => key.1 (p, c) he, ?_⟩
  rw [key.2 _ h.root_not_child, update_self]

/-- The specification's probability, one edge at a time. -/
theorem prob_edge {T : Tree} (h : T.WF) (av : Nat → Bool) (mu u : Nat → ℝ) {p c : Nat}
    (he : (p, c) ∈ T.edges) :
    (shapeOf T av).prob mu u c = if (shapeOf T av).avail c then
      (shapeOf T av).prob mu u p * (Real.exp ((shapeOf T av).value mu u c / mu p) /
        (shapeOf T av).denom mu u p) else 0 := by
  have hpc := h.edge _ he
  simp only at hpc
  conv_lhs => rw [Shape.prob]
  have hroot : c ≠ (shapeOf T av).root := by
    show c ≠ T.nNodes - 1
    omega
  rw [if_neg hroot]
  split_ifs with ha
  · have hk : p - (c + 1) < T.nNodes - (c + 1) := by omega
    rw [Finset.sum_eq_single (⟨p - (c + 1), hk⟩ : Fin ((shapeOf T av).nNodes - (c + 1)))]
    · have : c + 1 + (p - (c + 1)) = p := by omega
      simp only [this]
      rw [if_pos (by exact he)]
    · intro k _ hk'
      rw [if_neg]
      intro hch
      have := edge_parent_unique h he hch
      apply hk'
      apply Fin.ext
      simp only; omega
    · intro h; exact absurd (Finset.mem_univ _) h
  · rfl

theorem prob_root {T : Tree} (av : Nat → Bool) (mu u : Nat → ℝ) :
    (shapeOf T av).prob mu u (T.nNodes - 1) = 1 := by
  rw [Shape.prob]; simp [Shape.root, shapeOf]

theorem Tree.WF.exists_parent {T : Tree} (h : T.WF) {n : Nat} (hn : n < T.nNodes) :
    n = T.nNodes - 1 ∨ ∃ p, (p, n) ∈ T.edges := by
  by_cases hr : n = T.nNodes - 1
  · exact Or.inl hr
  · exact Or.inr (h.covered n (by omega))

/-- top-down induction -/
theorem Tree.WF.top_down {T : Tree} (h : T.WF) {motive : Nat → Prop}
    (hroot : motive (T.nNodes - 1)) (hstep : ∀ p c, (p, c) ∈ T.edges → motive p → motive c) :
    ∀ n < T.nNodes, motive n := by
  have key : ∀ k n, n < T.nNodes → T.nNodes - n ≤ k → motive n := by
    intro k
    induction k with
    | zero => intro n hn hk; omega
    | succ k ih =>
      intro n hn hk
      rcases h.exists_parent hn with rfl | ⟨p, hp⟩
      · exact hroot
      · have := h.edge _ hp
        simp only at this
        exact hstep p n hp (ih p (by omega) (by omega))
  intro n hn
  exact key _ n hn le_rfl

theorem probPass_value {T : Tree} (h : T.WF) (θ : Nat → ℝ) (av : Nat → Bool) (u : Nat → ℝ)
    (hmu : ∀ k, T.nAlts + k < T.nNodes → 0 < muOf T θ k) (av' : Nat → Bool)
    (hav : ∀ n, av' n = true ↔ (shapeOf T av).avail n)
    (cond pr0 : Arr)
    (hc : ∀ p c, (p, c) ∈ T.edges → (shapeOf T av).avail c → cond c =
      .fin (Real.exp (((shapeOf T av).value (muN T θ) u c - (shapeOf T av).value (muN T θ) u p) / muN T θ p))) :
    ∀ n < T.nNodes, probPass T av' cond pr0 n = .fin ((shapeOf T av).prob (muN T θ) u n) := by
  obtain ⟨h1, h2⟩ := probPass_eq h av' cond pr0
  refine h.top_down (motive := fun n => probPass T av' cond pr0 n = .fin ((shapeOf T av).prob (muN T θ) u n)) ?_ ?_
  · rw [h2, prob_root]; rfl
  · intro p c he ih
    rw [h1 p c he, prob_edge h av _ _ he]
    have hp := h.edge _ he
    simp only at hp
    by_cases ha : (shapeOf T av).avail c
    · rw [if_pos ((hav c).mpr ha), if_pos ha, ih, hc p c he ha, X.fin_mul,
        cond_ratio h av _ _ hp.2.1 (avail_parent h av he ha)]
      exact ne_of_gt (hmu _ (by omega))
    · rw [if_neg (by rw [hav]; exact ha), if_neg ha]; rfl

/-! ### double counting -/

/-- Sum over all non-root nodes = sum over edges, grouped by parent. -/
theorem sum_nodes_eq_sum_edges {T : Tree} (h : T.WF) (f : Nat → ℝ) :
    ∑ n ∈ Finset.range (T.nNodes - 1), f n = (T.edges.map (fun e => f e.2)).sum := by
  have h1 : (T.edges.map (fun e => f e.2)).sum = ((T.edges.map Prod.snd).map f).sum := by
    rw [List.map_map]; rfl
  rw [h1, ← List.sum_toFinset _ h.oneParent]
  congr 1
  ext n
  simp only [Finset.mem_range, List.mem_toFinset, List.mem_map]
  constructor
  · intro hn
    obtain ⟨p, hp⟩ := h.covered n (by omega)
    exact ⟨_, hp, rfl⟩
  · rintro ⟨e, he, rfl⟩
    have := h.edge e he
    omega

theorem sum_edges_by_parent {T : Tree} (h : T.WF) (g : Nat × Nat → ℝ) :
    (T.edges.map g).sum = ∑ n ∈ Finset.Ico T.nAlts T.nNodes, ((kids T n).map (fun c => g (n, c))).sum := by
  have hmap : ∀ n, ((kids T n).map (fun c => g (n, c))).sum =
      ((T.edges.filter (fun e => e.1 = n)).map g).sum := by
    intro n
    unfold kids
    rw [List.map_map]
    congr 1
    apply List.map_congr_left
    intro e he
    have := (List.mem_filter.mp he).2
    simp only [decide_eq_true_eq] at this
    simp [← this]
  simp only [hmap]
  have key : ∀ (l : List (Nat × Nat)), (∀ e ∈ l, e.1 ∈ Finset.Ico T.nAlts T.nNodes) →
      (l.map g).sum = ∑ n ∈ Finset.Ico T.nAlts T.nNodes, ((l.filter (fun e => e.1 = n)).map g).sum := by
    intro l
    induction l with
    | nil => intro _; simp
    | cons e l ih =>
      intro hl
      have ih' := ih (fun x hx => hl x (List.mem_cons_of_mem _ hx))
      rw [List.map_cons, List.sum_cons, ih']
      have he := hl e List.mem_cons_self
      have : ∀ n, ((List.filter (fun e => decide (e.1 = n)) (e :: l)).map g).sum =
          (if e.1 = n then g e else 0) + ((l.filter (fun e => e.1 = n)).map g).sum := by
        intro n
        by_cases hn : e.1 = n
        · simp [hn]
        · simp [hn]
      simp only [this, Finset.sum_add_distrib]
      rw [Finset.sum_ite_eq, if_pos he]
  apply key
  intro e he
  have := h.edge e he
  simp only [Finset.mem_Ico]; omega

theorem prob_nonneg {T : Tree} (h : T.WF) (av : Nat → Bool) (mu u : Nat → ℝ) :
    ∀ n < T.nNodes, 0 ≤ (shapeOf T av).prob mu u n := by
  refine h.top_down (motive := fun n => 0 ≤ (shapeOf T av).prob mu u n) ?_ ?_
  · rw [prob_root]; exact zero_le_one
  · intro p c he ih
    rw [prob_edge h av _ _ he]
    split_ifs with ha
    · have := denom_pos h av mu u (h.edge _ he).2.1 (avail_parent h av he ha)
      positivity
    · exact le_rfl

theorem prob_pos {T : Tree} (h : T.WF) (av : Nat → Bool) (mu u : Nat → ℝ) :
    ∀ n < T.nNodes, (shapeOf T av).avail n → 0 < (shapeOf T av).prob mu u n := by
  refine h.top_down (motive := fun n => (shapeOf T av).avail n → 0 < (shapeOf T av).prob mu u n) ?_ ?_
  · intro _; rw [prob_root]; exact zero_lt_one
  · intro p c he ih ha
    have hpa := avail_parent h av he ha
    have := denom_pos h av mu u (h.edge _ he).2.1 hpa
    have := ih hpa
    rw [prob_edge h av _ _ he, if_pos ha]
    positivity

/-- children's probabilities add up to the nest's -/
theorem prob_kids {T : Tree} (h : T.WF) (av : Nat → Bool) (mu u : Nat → ℝ) {n : Nat}
    (hn : T.nAlts ≤ n) (ha : (shapeOf T av).avail n) :
    ((kids T n).map ((shapeOf T av).prob mu u)).sum = (shapeOf T av).prob mu u n := by
  have hd := denom_pos h av mu u hn ha
  have : (kids T n).map ((shapeOf T av).prob mu u) = (kids T n).map (fun c =>
      (if (shapeOf T av).avail c then Real.exp ((shapeOf T av).value mu u c / mu n) else 0) *
        ((shapeOf T av).prob mu u n / (shapeOf T av).denom mu u n)) := by
    apply List.map_congr_left
    intro c hc
    rw [prob_edge h av mu u (mem_kids.mp hc)]
    split_ifs <;> ring
  rw [this, List.sum_map_mul_right, ← denom_eq h, mul_div_assoc', mul_comm, mul_div_assoc,
    div_self (ne_of_gt hd), mul_one]

theorem prob_sum {T : Tree} (h : T.WF) (av : Nat → Bool) (mu u : Nat → ℝ)
    (ha : (shapeOf T av).avail (T.nNodes - 1)) :
    ∑ a ∈ Finset.range T.nAlts, (shapeOf T av).prob mu u a = 1 := by
  set P := (shapeOf T av).prob mu u
  have hroot := h.root
  have e1 := sum_nodes_eq_sum_edges h P
  have e2 := sum_edges_by_parent h (fun e => P e.2)
  have e3 : ∑ n ∈ Finset.Ico T.nAlts T.nNodes, ((kids T n).map (fun c => P c)).sum =
      ∑ n ∈ Finset.Ico T.nAlts T.nNodes, P n := by
    apply Finset.sum_congr rfl
    intro n hn
    rw [Finset.mem_Ico] at hn
    by_cases hna : (shapeOf T av).avail n
    · exact prob_kids h av mu u hn.1 hna
    · have h0 : P n = 0 := by
        rcases h.exists_parent hn.2 with rfl | ⟨p, hp⟩
        · exact absurd ha hna
        · show (shapeOf T av).prob mu u n = 0
          rw [prob_edge h av _ _ hp, if_neg hna]
      rw [h0]
      apply List.sum_eq_zero
      intro x hx
      obtain ⟨c, hc, rfl⟩ := List.mem_map.mp hx
      show (shapeOf T av).prob mu u c = 0
      rw [prob_edge h av _ _ (mem_kids.mp hc), if_neg]
      intro hca
      exact hna (avail_parent h av (mem_kids.mp hc) hca)
  rw [← e1] at e2
  simp only at e2
  rw [e3] at e2
  have e4 : ∑ n ∈ Finset.Ico T.nAlts T.nNodes, P n =
      ∑ n ∈ Finset.Ico T.nAlts (T.nNodes - 1), P n + P (T.nNodes - 1) := by
    rw [← Finset.sum_Ico_succ_top (by omega), show T.nNodes - 1 + 1 = T.nNodes by omega]
  rw [e4, ← Finset.sum_range_add_sum_Ico P (show T.nAlts ≤ T.nNodes - 1 by omega)] at e2
  have hr : P (T.nNodes - 1) = 1 := prob_root av mu u
  linarith

end Larch.Kernel
