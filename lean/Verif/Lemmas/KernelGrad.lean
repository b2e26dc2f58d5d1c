import Verif.Lemmas.KernelLL

namespace Larch.Kernel

open Function Larch Larch.Spec
open scoped BigOperators
open Classical

section code

variable (T : Tree) (θ : Nat → ℝ) (av : Nat → Bool) (V k : Nat → ℝ) (d0 : Nat → Nat → ℝ)

/-- The nest's own logsum parameter is `p`. -/
def slotIs (n p : Nat) : Prop := T.muSlot (n - T.nAlts) = some p

/-- The finalised utility-gradient row computed by the code for a non-root node. -/
noncomputable def codeG (n p : Nat) : ℝ :=
  let acc := d0 n p + ∑ c : Fin n, if (n, (c : Nat)) ∈ T.edges ∧ av c = true then
    k c * codeG c p - (if slotIs T n p then k c * V c else 0) else 0
  if T.nAlts ≤ n ∧ slotIs T n p then (acc + V n) / θ p else acc
termination_by n
decreasing_by exact c.2

/-- The accumulated (not finalised) row, as left in the root. -/
noncomputable def codeAcc (n p : Nat) : ℝ :=
  d0 n p + ∑ c : Fin n, if (n, (c : Nat)) ∈ T.edges ∧ av c = true then
    k c * codeG T θ av V k d0 c p - (if slotIs T n p then k c * V c else 0) else 0

theorem codeG_eq (n p : Nat) : codeG T θ av V k d0 n p =
    if T.nAlts ≤ n ∧ slotIs T n p then (codeAcc T θ av V k d0 n p + V n) / θ p
    else codeAcc T θ av V k d0 n p := by
  rw [codeG]; rfl

/-- contribution of edge `(n, c)` -/
noncomputable def con (n c p : Nat) : ℝ :=
  k c * codeG T θ av V k d0 c p - (if slotIs T n p then k c * V c else 0)

/-- partial sums over a prefix of the edges -/
noncomputable def accL (l : List (Nat × Nat)) (n p : Nat) : ℝ :=
  d0 n p + ((l.filter (fun e => e.1 = n ∧ av e.2 = true)).map (fun e => con T θ av V k d0 n e.2 p)).sum

end code

theorem accL_full {T : Tree} (h : T.WF) (θ : Nat → ℝ) (av : Nat → Bool) (V k : Nat → ℝ) (d0 : Nat → Nat → ℝ)
    (n p : Nat) : accL T θ av V k d0 T.edges n p = codeAcc T θ av V k d0 n p := by
  unfold accL codeAcc
  congr 1
  have := sum_kids h n (fun c => if av c = true then con T θ av V k d0 n c p else 0)
  have e1 : ∀ (l : List (Nat × Nat)), ((l.filter (fun e => e.1 = n ∧ av e.2 = true)).map
      (fun e => con T θ av V k d0 n e.2 p)).sum =
      (((l.filter (fun e => e.1 = n)).map Prod.snd).map
        (fun c => if av c = true then con T θ av V k d0 n c p else 0)).sum := by
    intro l
    induction l with
    | nil => simp
    | cons e l ih =>
      by_cases h1 : e.1 = n <;> by_cases h2 : av e.2 = true <;> simp_all
  rw [e1]
  unfold kids at this
  rw [this]
  apply Finset.sum_congr rfl
  intro c _
  by_cases h1 : (n, (c : Nat)) ∈ T.edges <;> by_cases h2 : av c = true <;> simp [h1, h2, con]

theorem dUtil_inv {T : Tree} (h : T.WF) (θ : Nat → ℝ) (av : Nat → Bool) (U cond : Arr) (V k : Nat → ℝ)
    (d0 : Nat → Nat → ℝ) (dU0 : Arr2)
    (hθ : ∀ n s, T.nAlts ≤ n → n < T.nNodes → slotIs T n s → θ s ≠ 0)
    (hU : ∀ e ∈ T.edges, av e.2 = true → U e.2 = .fin (V e.2))
    (hk : ∀ e ∈ T.edges, av e.2 = true → cond e.2 = .fin (k e.2))
    (h0 : ∀ n p, dU0 n p = .fin (d0 n p)) :
    ∀ (l r : List (Nat × Nat)), T.edges = l ++ r → ∀ n p,
      l.foldl (dUtilStep T θ av U cond) dU0 n p =
        .fin (if av n = true ∧ n ∈ l.map Prod.snd then codeG T θ av V k d0 n p
              else accL T θ av V k d0 l n p) := by
  intro l
  induction l using List.reverseRecOn with
  | nil => intro r _ n p; simp [accL, h0]
  | append_singleton l e ih =>
    intro r hr n p
    obtain ⟨u, d⟩ := e
    have hed : (u, d) ∈ T.edges := by rw [hr]; simp
    have hlt := h.edge _ hed
    simp only at hlt
    have hr' : T.edges = l ++ ((u, d) :: r) := by rw [hr]; simp
    have ih' := ih _ hr'
    have hsrt := h.sorted
    rw [hr'] at hsrt
    have hle : ∀ x ∈ l, x.1 ≤ u := fun x hx =>
      (List.pairwise_append.mp hsrt).2.2 x hx (u, d) List.mem_cons_self
    have hge : ∀ x ∈ r, u ≤ x.1 := fun x hx =>
      (List.pairwise_cons.mp (List.pairwise_append.mp hsrt).2.1).1 x hx
    have hnd := h.oneParent
    rw [hr', List.map_append, List.map_cons] at hnd
    have hd_not : d ∉ l.map Prod.snd := by
      intro hm
      have := List.disjoint_of_nodup_append hnd
      exact this hm List.mem_cons_self
    have hu_not : u ∉ l.map Prod.snd := by
      intro hm
      obtain ⟨x, hx, hxe⟩ := List.mem_map.mp hm
      have h1 := hle x hx
      have h2 := h.edge x (by rw [hr']; exact List.mem_append_left _ hx)
      omega
    rw [List.foldl_append]
    simp only [List.foldl_cons, List.foldl_nil]
    set dUl := l.foldl (dUtilStep T θ av U cond) dU0 with hdUl
    by_cases hav : av d = true
    · -- the children of d are all processed
      have hacc : ∀ p, accL T θ av V k d0 l d p = codeAcc T θ av V k d0 d p := by
        intro p
        rw [← accL_full h]
        unfold accL
        rw [hr', List.filter_append]
        have : List.filter (fun e => decide (e.1 = d ∧ av e.2 = true)) ((u, d) :: r) = [] := by
          rw [List.filter_eq_nil_iff]
          intro x hx
          have : x.1 ≠ d := by
            rcases List.mem_cons.mp hx with rfl | hx
            · simp only; omega
            · have := hge x hx; omega
          simp [this]
        rw [this, List.append_nil]
      have hrowd : ∀ p, dUl d p = .fin (codeAcc T θ av V k d0 d p) := by
        intro p
        rw [ih' d p, if_neg (fun hh => hd_not hh.2), hacc]
      have hrowu : ∀ p, dUl u p = .fin (accL T θ av V k d0 l u p) := by
        intro p
        rw [ih' u p, if_neg (fun hh => hu_not hh.2)]
      have hUd := hU _ hed hav
      have hkd := hk _ hed hav
      simp only at hUd hkd
      -- step 1: finalise row d
      have hstep1 : ∀ n p, dUtilOwn T θ U dUl d n p =
          if n = d then .fin (codeG T θ av V k d0 d p) else dUl n p := by
        intro n p
        unfold dUtilOwn
        by_cases hdn : T.nAlts ≤ d
        · rw [if_pos hdn]
          cases hs : T.muSlot (d - T.nAlts) with
          | none =>
            simp only
            by_cases hn : n = d
            · subst hn
              rw [if_pos rfl, hrowd, codeG_eq]
              rw [if_neg]
              rintro ⟨_, h2⟩
              unfold slotIs at h2
              rw [hs] at h2; simp at h2
            · rw [if_neg hn]
          | some s =>
            have hθs : θ s ≠ 0 := hθ d s hdn (by omega) hs
            simp only [addAt2, set2, update_self, update_idem]
            by_cases hn : n = d
            · subst hn
              rw [if_pos rfl, update_self]
              by_cases hps : p = s
              · subst hps
                rw [update_self, hrowd, hUd, X.fin_add, X.fin_div hθs, codeG_eq, if_pos ⟨hdn, hs⟩]
              · rw [update_of_ne hps, hrowd, codeG_eq, if_neg]
                rintro ⟨_, h2⟩
                unfold slotIs at h2
                rw [hs] at h2
                exact hps (by simpa using h2.symm)
            · rw [if_neg hn, update_of_ne hn]
        · rw [if_neg hdn]
          by_cases hn : n = d
          · subst hn
            rw [if_pos rfl, hrowd, codeG_eq, if_neg (fun hh => hdn hh.1)]
          · rw [if_neg hn]
      unfold dUtilStep
      simp only [hav, if_true]
      set dU1 := dUtilOwn T θ U dUl d with hdU1
      have hu1 : ∀ p, dU1 u p = .fin (accL T θ av V k d0 l u p) := by
        intro p; rw [hstep1, if_neg (by omega), hrowu]
      have hd1 : ∀ p, dU1 d p = .fin (codeG T θ av V k d0 d p) := by
        intro p; rw [hstep1, if_pos rfl]
      -- step 2
      have hstep2 : ∀ n p, dUtilMu T U cond dU1 (u, d) n p = if n = u then
            .fin (accL T θ av V k d0 l u p - (if slotIs T u p then k d * V d else 0)) else dU1 n p := by
        intro n p
        unfold dUtilMu
        simp only
        cases hs : T.muSlot (u - T.nAlts) with
        | none =>
          simp only
          by_cases hn : n = u
          · subst hn
            have : ¬ slotIs T n p := by unfold slotIs; rw [hs]; simp
            rw [if_pos rfl, if_neg this, hu1, sub_zero]
          · rw [if_neg hn]
        | some s =>
          simp only [addAt2, set2]
          by_cases hn : n = u
          · subst hn
            rw [if_pos rfl, update_self]
            by_cases hps : p = s
            · subst hps
              have hsl : slotIs T n p := hs
              rw [update_self, hu1, hkd, hUd, X.fin_mul, X.fin_neg, X.fin_add, if_pos hsl]
              rw [sub_eq_add_neg]
            · have : ¬ slotIs T n p := by
                unfold slotIs; rw [hs]; intro h2; exact hps (by simpa using h2.symm)
              rw [update_of_ne hps, hu1, if_neg this, sub_zero]
          · rw [if_neg hn, update_of_ne hn]
      set dU2 := dUtilMu T U cond dU1 (u, d) with hdU2
      by_cases hn : n = u
      · subst hn
        rw [update_self, hstep2, if_pos rfl, hstep2, if_neg (show ¬ d = n by omega), hd1, hkd, X.fin_mul, X.fin_add]
        have hnm : n ∉ (l ++ [(n, d)]).map Prod.snd := by
          rw [List.map_append, List.mem_append, not_or]
          refine ⟨hu_not, ?_⟩
          simp; omega
        rw [if_neg (show ¬ (av n = true ∧ n ∈ (l ++ [(n, d)]).map Prod.snd) from fun hh => hnm hh.2)]
        congr 1
        unfold accL
        rw [List.filter_append]
        simp only [List.filter_cons, List.filter_nil, hav, and_self, decide_true, if_true, List.map_append,
          List.sum_append, List.map_cons, List.map_nil, List.sum_cons, List.sum_nil, add_zero, con]
        ring
      · rw [update_of_ne hn, hstep2, if_neg hn, hstep1]
        by_cases hnd' : n = d
        · subst hnd'
          rw [if_pos rfl, if_pos ⟨hav, by simp⟩]
        · rw [if_neg hnd', ih' n p]
          congr 1
          have e1 : (n ∈ (l ++ [(u, d)]).map Prod.snd) ↔ n ∈ l.map Prod.snd := by
            rw [List.map_append, List.mem_append]; simp [hnd']
          have e2 : accL T θ av V k d0 (l ++ [(u, d)]) n p = accL T θ av V k d0 l n p := by
            unfold accL
            rw [List.filter_append]
            have : ¬ (u = n) := fun hh => hn hh.symm
            simp [this]
          simp only [e1, e2]
    · unfold dUtilStep
      simp only [hav]
      rw [if_neg (by simp)]
      rw [ih' n p]
      congr 1
      have e1 : (av n = true ∧ n ∈ (l ++ [(u, d)]).map Prod.snd) ↔ (av n = true ∧ n ∈ l.map Prod.snd) := by
        rw [List.map_append, List.mem_append]
        constructor
        · rintro ⟨h1, h2 | h2⟩
          · exact ⟨h1, h2⟩
          · simp at h2; subst h2; exact absurd h1 hav
        · rintro ⟨h1, h2⟩; exact ⟨h1, Or.inl h2⟩
      have e2 : accL T θ av V k d0 (l ++ [(u, d)]) n p = accL T θ av V k d0 l n p := by
        unfold accL
        rw [List.filter_append]
        simp [hav]
      simp only [e1, e2]

/-- Final utility-gradient row of a node (finalised unless it is the root). -/
noncomputable def codeRow (T : Tree) (θ : Nat → ℝ) (av : Nat → Bool) (V k : Nat → ℝ) (d0 : Nat → Nat → ℝ)
    (n p : Nat) : ℝ :=
  if n = T.nNodes - 1 then codeAcc T θ av V k d0 n p else codeG T θ av V k d0 n p

theorem dUtilPass_row {T : Tree} (h : T.WF) (θ : Nat → ℝ) (av : Nat → Bool) (U cond : Arr) (V k : Nat → ℝ)
    (d0 : Nat → Nat → ℝ) (dU0 : Arr2)
    (hθ : ∀ n s, T.nAlts ≤ n → n < T.nNodes → slotIs T n s → θ s ≠ 0)
    (hU : ∀ e ∈ T.edges, av e.2 = true → U e.2 = .fin (V e.2))
    (hk : ∀ e ∈ T.edges, av e.2 = true → cond e.2 = .fin (k e.2))
    (h0 : ∀ n p, dU0 n p = .fin (d0 n p)) {n : Nat} (hn : n < T.nNodes) (hav : av n = true) (p : Nat) :
    dUtilPass T θ av U cond dU0 n p = .fin (codeRow T θ av V k d0 n p) := by
  unfold dUtilPass codeRow
  rw [dUtil_inv h θ av U cond V k d0 dU0 hθ hU hk h0 T.edges [] (by simp) n p]
  congr 1
  by_cases hr : n = T.nNodes - 1
  · rw [if_pos hr, if_neg, accL_full h]
    rintro ⟨_, h2⟩
    rw [hr] at h2
    exact h.root_not_child h2
  · rw [if_neg hr, if_pos]
    refine ⟨hav, ?_⟩
    obtain ⟨q, hq⟩ := h.covered n (by omega)
    exact List.mem_map.mpr ⟨_, hq, rfl⟩

/-! ### probability gradient -/

/-- probability gradient computed by the code -/
noncomputable def codeDP (T : Tree) (θ : Nat → ℝ) (ch : Nat → ℝ) (V k P : Nat → ℝ) (row : Nat → Nat → ℝ)
    (n p : Nat) : ℝ :=
  if n = T.nNodes - 1 ∨ ch n = 0 then 0
  else ∑ j : Fin (T.nNodes - (n + 1)), if (n + 1 + (j : Nat), n) ∈ T.edges then
    ((row n p - row (n + 1 + j) p + (if slotIs T (n + 1 + j) p then
        (V (n + 1 + j) - V n) / muN T θ (n + 1 + j) else 0)) * (P (n + 1 + j) / muN T θ (n + 1 + j)) +
      codeDP T θ ch V k P row (n + 1 + j) p) * k n
    else 0
termination_by T.nNodes - n
decreasing_by have := j.2; omega

theorem codeDP_edge {T : Tree} (h : T.WF) (θ : Nat → ℝ) (ch : Nat → ℝ) (V k P : Nat → ℝ) (row : Nat → Nat → ℝ)
    {u c : Nat} (he : (u, c) ∈ T.edges) (hc : ch c ≠ 0) (p : Nat) :
    codeDP T θ ch V k P row c p =
      ((row c p - row u p + (if slotIs T u p then (V u - V c) / muN T θ u else 0)) * (P u / muN T θ u) +
        codeDP T θ ch V k P row u p) * k c := by
  have hpc := h.edge _ he
  simp only at hpc
  conv_lhs => rw [codeDP]
  rw [if_neg (by push Not; exact ⟨by omega, hc⟩)]
  have hk : u - (c + 1) < T.nNodes - (c + 1) := by omega
  rw [Finset.sum_eq_single (⟨u - (c + 1), hk⟩ : Fin (T.nNodes - (c + 1)))]
  · have : c + 1 + (u - (c + 1)) = u := by omega
    simp only [this]
    rw [if_pos he]
  · intro j _ hj
    rw [if_neg]
    intro hch
    have := edge_parent_unique h he hch
    apply hj
    apply Fin.ext
    simp only; omega
  · intro h; exact absurd (Finset.mem_univ _) h

theorem codeDP_root (T : Tree) (θ : Nat → ℝ) (ch : Nat → ℝ) (V k P : Nat → ℝ) (row : Nat → Nat → ℝ) (p : Nat) :
    codeDP T θ ch V k P row (T.nNodes - 1) p = 0 := by
  rw [codeDP]; simp

theorem dProbPass_real {T : Tree} (h : T.WF) (θ : Nat → ℝ) (av : Nat → Bool) (ch : Nat → ℝ) (U cond P : Arr)
    (dU : Arr2) (V k Pr : Nat → ℝ) (row : Nat → Nat → ℝ)
    (hmu : ∀ n, T.nAlts ≤ n → n < T.nNodes → muN T θ n ≠ 0)
    (hch : ∀ n < T.nNodes, ch n ≠ 0 → av n = true)
    (hav : ∀ e ∈ T.edges, av e.2 = true → av e.1 = true)
    (hU : ∀ n < T.nNodes, av n = true → U n = .fin (V n))
    (hk : ∀ e ∈ T.edges, av e.2 = true → cond e.2 = .fin (k e.2))
    (hP : ∀ n < T.nNodes, P n = .fin (Pr n))
    (hdU : ∀ n < T.nNodes, av n = true → ∀ p, dU n p = .fin (row n p)) :
    ∀ n < T.nNodes, ∀ p, dProbPass T θ ch U cond P dU n p = .fin (codeDP T θ ch V k Pr row n p) := by
  have key := down_fold (fun e (x y : Nat → X) => if ch e.2 ≠ 0 then
      fun p => y p + dProbScratch T θ U P dU (fun _ => x) e p * cond e.2 else y) T.edges h.sorted
    (fun e he => (h.edge e he).1) h.oneParent (fun _ _ => 0)
  have heq : dProbPass T θ ch U cond P dU = T.edges.reverse.foldl
      (fun s e => update s e.2 ((fun e (x y : Nat → X) => if ch e.2 ≠ 0 then
      fun p => y p + dProbScratch T θ U P dU (fun _ => x) e p * cond e.2 else y) e (s e.1) (s e.2)))
      (fun _ _ => 0) := by
    unfold dProbPass
    congr 1
    funext dP e
    by_cases hc : ch e.2 = 0
    · simp [hc]
    · simp only [hc, ne_eq, not_false_eq_true, if_true]
      rfl
  rw [heq]
  set A := T.edges.reverse.foldl
      (fun s e => update s e.2 ((fun e (x y : Nat → X) => if ch e.2 ≠ 0 then
      fun p => y p + dProbScratch T θ U P dU (fun _ => x) e p * cond e.2 else y) e (s e.1) (s e.2)))
      (fun _ _ => 0)
  refine h.top_down (motive := fun n => ∀ p, A n p = .fin (codeDP T θ ch V k Pr row n p)) ?_ ?_
  · intro p
    rw [codeDP_root, key.2 _ h.root_not_child]; rfl
  · intro u c he ih p
    have hpc := h.edge _ he
    simp only at hpc
    rw [key.1 (u, c) he]
    simp only
    by_cases hc : ch c = 0
    · rw [codeDP, if_pos (Or.inr hc)]
      simp [hc]; rfl
    · rw [if_pos hc, codeDP_edge h θ ch V k Pr row he hc]
      have hac := hch c (by omega) hc
      have hau := hav _ he hac
      have hm := hmu u hpc.2.1 hpc.2.2
      unfold dProbScratch
      have hm' : muOf T θ (u - T.nAlts) ≠ 0 := hm
      simp only
      rw [if_pos hm', hdU c (by omega) hac, hdU u hpc.2.2 hau, hU c (by omega) hac, hU u hpc.2.2 hau,
        hP u hpc.2.2, hk _ he hac, ih p, X.fin_sub, X.fin_sub, X.fin_div hm', X.fin_div hm']
      unfold slotIs
      by_cases hs : T.muSlot (u - T.nAlts) = some p
      · simp only [hs, if_true, X.fin_add, X.fin_mul, X.zero_def, zero_add]; rfl
      · simp only [hs, if_false, X.fin_add, X.fin_mul, X.zero_def, zero_add, add_zero]; rfl

/-! ### likelihood gradient -/

theorem dLoglike_real (nAlts : Nat) (ch : Nat → ℝ) (wt : ℝ) (P : Arr) (dP : Arr2) (Pr : Nat → ℝ)
    (D : Nat → Nat → ℝ)
    (hP : ∀ a < nAlts, P a = .fin (Pr a)) (hD : ∀ a < nAlts, ∀ p, dP a p = .fin (D a p))
    (hpos : ∀ a < nAlts, ch a ≠ 0 → 1 / 10 ^ 250 ≤ Pr a) :
    (∀ p, (dLoglikePass nAlts ch wt P dP).1 p =
      .fin (wt * ∑ a ∈ Finset.range nAlts, ch a * (D a p / Pr a))) ∧
    (∀ p q, (dLoglikePass nAlts ch wt P dP).2 p q =
      .fin (wt * ∑ a ∈ Finset.range nAlts, ch a * ((D a p / Pr a) * (D a q / Pr a)))) := by
  unfold dLoglikePass
  induction nAlts with
  | zero => simp; rfl
  | succ m ih =>
    obtain ⟨i1, i2⟩ := ih (fun a ha => hP a (by omega)) (fun a ha => hD a (by omega))
      (fun a ha => hpos a (by omega))
    rw [List.range_succ, List.foldl_append]
    simp only [List.foldl_cons, List.foldl_nil]
    set s := (List.range m).foldl (dLoglikeStep ch wt P dP) (fun _ => 0, fun _ _ => 0)
    unfold dLoglikeStep
    by_cases hc : ch m = 0
    · rw [if_pos hc]
      simp only [Finset.sum_range_succ, hc, zero_mul, add_zero]
      exact ⟨i1, i2⟩
    · have hge := hpos m (by omega) hc
      have hp0 : 0 < Pr m := lt_of_lt_of_le (by positivity) hge
      have hgt : X.gt (P m) 0 := by rw [hP m (by omega)]; exact hp0
      have hfl : floorProb (P m) = .fin (Pr m) := by
        unfold floorProb
        rw [hP m (by omega), if_neg]
        rw [X.fin_gt_fin]; exact not_lt.mpr hge
      rw [if_neg hc, if_pos hgt, hfl]
      simp only [hD m (by omega), X.fin_div (ne_of_gt hp0), X.fin_mul, X.fin_div hc, i1, i2, X.fin_add,
        Finset.sum_range_succ]
      constructor
      · intro p
        congr 1; ring
      · intro p q
        congr 1
        field_simp

/-- The same without the lower bound: the code divides by the floored probability. -/
theorem dLoglike_floor (nAlts : Nat) (ch : Nat → ℝ) (wt : ℝ) (P : Arr) (dP : Arr2) (Pr : Nat → ℝ)
    (D : Nat → Nat → ℝ)
    (hP : ∀ a < nAlts, P a = .fin (Pr a)) (hD : ∀ a < nAlts, ∀ p, dP a p = .fin (D a p))
    (hpos : ∀ a < nAlts, ch a ≠ 0 → 0 < Pr a) :
    (∀ p, (dLoglikePass nAlts ch wt P dP).1 p =
      .fin (wt * ∑ a ∈ Finset.range nAlts, ch a * (D a p / max (Pr a) (1 / 10 ^ 250)))) ∧
    (∀ p q, (dLoglikePass nAlts ch wt P dP).2 p q =
      .fin (wt * ∑ a ∈ Finset.range nAlts, ch a * ((D a p / max (Pr a) (1 / 10 ^ 250)) *
        (D a q / max (Pr a) (1 / 10 ^ 250))))) := by
  unfold dLoglikePass
  induction nAlts with
  | zero => simp; rfl
  | succ m ih =>
    obtain ⟨i1, i2⟩ := ih (fun a ha => hP a (by omega)) (fun a ha => hD a (by omega))
      (fun a ha => hpos a (by omega))
    rw [List.range_succ, List.foldl_append]
    simp only [List.foldl_cons, List.foldl_nil]
    set s := (List.range m).foldl (dLoglikeStep ch wt P dP) (fun _ => 0, fun _ _ => 0)
    unfold dLoglikeStep
    by_cases hc : ch m = 0
    · rw [if_pos hc]
      simp only [Finset.sum_range_succ, hc, zero_mul, add_zero]
      exact ⟨i1, i2⟩
    · have hp0 := hpos m (by omega) hc
      have hm0 : 0 < max (Pr m) (1 / 10 ^ 250) := lt_max_of_lt_left hp0
      have hgt : X.gt (P m) 0 := by rw [hP m (by omega)]; exact hp0
      have hfl : floorProb (P m) = .fin (max (Pr m) (1 / 10 ^ 250)) := by
        unfold floorProb
        rw [hP m (by omega)]
        split_ifs with h
        · rw [X.fin_gt_fin] at h; rw [max_eq_right h.le]
        · rw [X.fin_gt_fin] at h; rw [max_eq_left (not_lt.mp h)]
      rw [if_neg hc, if_pos hgt, hfl]
      simp only [hD m (by omega), X.fin_div (ne_of_gt hm0), X.fin_mul, X.fin_div hc, i1, i2, X.fin_add,
        Finset.sum_range_succ]
      constructor
      · intro p
        congr 1; ring
      · intro p q
        congr 1
        field_simp

end Larch.Kernel
