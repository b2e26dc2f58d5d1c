import Verif.Model.Latent
import Verif.Props.Params
import Mathlib.Analysis.SpecialFunctions.Log.Deriv
import Mathlib.Analysis.Calculus.Deriv.Mul
import Mathlib.Analysis.Calculus.Deriv.Add
import Mathlib.Algebra.BigOperators.Intervals

/-!
# C39, C70, C71: latent class models
-/

namespace Larch.Props

open Larch.Latent Finset

/-- A probability distribution on `0 … n-1`. -/
def IsDist (n : Nat) (p : Nat → ℝ) : Prop := (∀ a < n, 0 ≤ p a) ∧ ∑ a ∈ range n, p a = 1

/-! ## The mixture -/

theorem column_self (n w a : Nat) (h : n ≤ w) : column n w a = some a := by
  unfold column; rw [if_pos (by omega)]

theorem probability_spec (n : Nat) (km : Membership) (ks : List ClassOut) : ∀ p : Nat → Nat → ℝ,
    (∀ k ∈ ks, k.key ∈ km.cols ∧ n ≤ k.width) →
    probability n km ks p = .ok (fun c a => p c a + (ks.map (fun k => km.pr c (km.cols.idxOf k.key) * k.pr c a)).sum) := by
  induction ks with
  | nil => intro p _; simp [probability]
  | cons k ks ih =>
    intro p h
    obtain ⟨h1, h2⟩ := h k (by simp)
    unfold probability
    rw [if_neg (by simpa using h1), if_neg (by simp [column_self n k.width 0 h2]), ih _ (fun j hj => h j (by simp [hj]))]
    congr 1
    funext c a
    simp only [column_self n k.width a h2, Option.getD_some, List.map_cons, List.sum_cons]
    ring

/-- **C39 (mixture).** For every number of classes and alternatives: if every class occurs among the alternatives of the membership
model and every class model covers the alternatives, the probability of alternative `a` is the average of the classes'
probabilities of `a`, weighted by the probability of membership. -/
theorem C39_mixture (n : Nat) (km : Membership) (ks : List ClassOut) (h : ∀ k ∈ ks, k.key ∈ km.cols ∧ n ≤ k.width) :
    probability n km ks (fun _ _ => 0) =
      .ok (fun c a => (ks.map (fun k => km.pr c (km.cols.idxOf k.key) * k.pr c a)).sum) := by
  rw [probability_spec n km ks _ h]; simp

theorem sum_swap (n : Nat) (ks : List ClassOut) (f : ClassOut → Nat → ℝ) :
    ∑ a ∈ range n, (ks.map (fun k => f k a)).sum = (ks.map (fun k => ∑ a ∈ range n, f k a)).sum := by
  induction ks with
  | nil => simp
  | cons k ks ih => simp only [List.map_cons, List.sum_cons, Finset.sum_add_distrib, ih]

theorem list_sum_range (f : Nat → ℝ) (n : Nat) : ((List.range n).map f).sum = ∑ i ∈ range n, f i := by
  induction n with
  | zero => simp
  | succ n ih => rw [List.range_succ, List.map_append, List.sum_append, ih, Finset.sum_range_succ]; simp

theorem sum_cols (cols : List String) (hnd : cols.Nodup) (w : Nat → ℝ) :
    (cols.map (fun s => w (cols.idxOf s))).sum = ∑ i ∈ range cols.length, w i := by
  have : cols.map (fun s => w (cols.idxOf s)) = (List.range cols.length).map w := by
    apply List.ext_getElem
    · simp
    · intro i h1 h2
      simp only [List.getElem_map, List.getElem_range]
      rw [List.Nodup.idxOf_getElem hnd]
  rw [this]
  exact list_sum_range w cols.length

/-- **C39 (distribution).** If the classes are exactly the alternatives of the membership model, and all constituent models give
probability distributions, so does the latent class model. -/
theorem C39_distribution (n : Nat) (km : Membership) (ks : List ClassOut) (c : Nat) (hw : ∀ k ∈ ks, n ≤ k.width)
    (hnd : km.cols.Nodup) (hkeys : (ks.map ClassOut.key).Perm km.cols) (hm : IsDist km.cols.length (km.pr c))
    (hk : ∀ k ∈ ks, IsDist n (k.pr c)) :
    ∃ P, probability n km ks (fun _ _ => 0) = .ok P ∧ IsDist n (P c) := by
  have hmem : ∀ k ∈ ks, k.key ∈ km.cols := fun k hk => hkeys.mem_iff.mp (List.mem_map_of_mem hk)
  refine ⟨_, C39_mixture n km ks (fun k hk' => ⟨hmem k hk', hw k hk'⟩), ?_, ?_⟩
  · intro a ha
    apply List.sum_nonneg
    intro x hx
    obtain ⟨k, hk', rfl⟩ := List.mem_map.mp hx
    exact mul_nonneg (hm.1 _ (List.idxOf_lt_length_of_mem (hmem k hk'))) ((hk k hk').1 a ha)
  · simp only
    rw [sum_swap n ks (fun k a => km.pr c (km.cols.idxOf k.key) * k.pr c a)]
    have e : ks.map (fun k => ∑ a ∈ range n, km.pr c (km.cols.idxOf k.key) * k.pr c a) =
        (ks.map ClassOut.key).map (fun s => km.pr c (km.cols.idxOf s)) := by
      rw [List.map_map]
      apply List.map_congr_left
      intro k hk'
      rw [← Finset.mul_sum, (hk k hk').2, mul_one]
      rfl
    rw [e, (hkeys.map _).sum_eq, sum_cols km.cols hnd (km.pr c), hm.2]

/-- A membership model with two alternatives and two classes, used in examples. -/
def kmDemo (p : ℝ) : Membership := ⟨["1", "2"], fun _ i => if i = 0 then p else 1 - p, fun _ _ _ => 0⟩

/-- A class with three alternatives, the first chosen with probability `q`, the others equally likely. -/
noncomputable def clDemo (key : String) (q : ℝ) : ClassOut := ⟨key, 3, fun _ a => if a = 0 then q else (1 - q) / 2, fun _ _ _ => 0⟩

theorem clDemo_dist (key : String) (q : ℝ) (h0 : 0 ≤ q) (h1 : q ≤ 1) (c : Nat) : IsDist 3 ((clDemo key q).pr c) := by
  constructor
  · intro a _
    simp only [clDemo]
    split
    · exact h0
    · linarith
  · simp [clDemo, Finset.sum_range_succ]
    ring

theorem kmDemo_dist (p : ℝ) (h0 : 0 ≤ p) (h1 : p ≤ 1) (c : Nat) : IsDist 2 ((kmDemo p).pr c) := by
  constructor
  · intro a _
    simp only [kmDemo]
    split
    · exact h0
    · linarith
  · simp [kmDemo, Finset.sum_range_succ]

/-- Two classes with probabilities 0.8 and 0.2 of the first alternative, membership 0.25 and 0.75. -/
example : ∃ P, probability 3 (kmDemo (1 / 4)) [clDemo "1" (4 / 5), clDemo "2" (1 / 5)] (fun _ _ => 0) = .ok P ∧
    IsDist 3 (P 7) ∧ P 7 0 = 7 / 20 := by
  obtain ⟨P, h1, h2⟩ := C39_distribution 3 (kmDemo (1 / 4)) [clDemo "1" (4 / 5), clDemo "2" (1 / 5)] 7
    (by intro k hk; simp only [List.mem_cons, List.not_mem_nil, or_false] at hk; rcases hk with rfl | rfl <;> simp [clDemo])
    (by simp [kmDemo]) (by simp [clDemo, kmDemo]) (kmDemo_dist _ (by norm_num) (by norm_num) 7)
    (by
      intro k hk
      simp only [List.mem_cons, List.not_mem_nil, or_false] at hk
      rcases hk with rfl | rfl
      · exact clDemo_dist _ _ (by norm_num) (by norm_num) 7
      · exact clDemo_dist _ _ (by norm_num) (by norm_num) 7)
  refine ⟨P, h1, h2, ?_⟩
  rw [C39_mixture] at h1
  · simp only [Except.ok.injEq] at h1
    rw [← h1]
    simp [clDemo, kmDemo, List.idxOf_cons]
    norm_num
  · intro k hk
    simp only [List.mem_cons, List.not_mem_nil, or_false] at hk
    rcases hk with rfl | rfl <;> simp [clDemo, kmDemo]

/-- **C39 violated (membership alternative without a class).** Nothing checks that every alternative of the membership model is a
class; probability given to one that is not is lost. -/
theorem C39_fails_missing_class (p q : ℝ) (hp : p < 1) :
    ∃ P, probability 3 (kmDemo p) [clDemo "1" q] (fun _ _ => 0) = .ok P ∧ ∀ c, ∑ a ∈ range 3, P c a = p ∧ p ≠ 1 := by
  refine ⟨_, C39_mixture 3 (kmDemo p) [clDemo "1" q] ?_, ?_⟩
  · intro k hk; simp only [List.mem_singleton] at hk; subst hk; simp [clDemo, kmDemo]
  · intro c
    refine ⟨?_, hp.ne⟩
    simp [clDemo, kmDemo, Finset.sum_range_succ]
    ring

/-- **C39 violated (data without DataFrames).** When the data are not attached as DataFrames, the code takes the number of
alternatives from the MEMBERSHIP model, that is, the number of classes.  With two classes and three alternatives, the
result has only two columns (so the probability of the third is lost); with more classes than alternatives (two or more)
it raises. -/
theorem C39_fails_count :
    (∃ P, probability (kmDemo (1 / 2)).cols.length (kmDemo (1 / 2)) [clDemo "1" 0, clDemo "2" 0] (fun _ _ => 0) = .ok P ∧
      ∀ c, ∑ a ∈ range (kmDemo (1 / 2)).cols.length, P c a = 1 / 2) ∧
    (∀ (km : Membership) (k : ClassOut) (ks : List ClassOut) (p : Nat → Nat → ℝ), k.key ∈ km.cols → 2 ≤ k.width →
      k.width < km.cols.length → probability km.cols.length km (k :: ks) p = .error "ValueError: broadcast") := by
  constructor
  · refine ⟨_, C39_mixture _ (kmDemo (1 / 2)) [clDemo "1" 0, clDemo "2" 0] ?_, ?_⟩
    · intro k hk
      simp only [List.mem_cons, List.not_mem_nil, or_false] at hk
      rcases hk with rfl | rfl <;> simp [clDemo, kmDemo]
    · intro c
      simp [clDemo, kmDemo, Finset.sum_range_succ, List.idxOf_cons]
      norm_num
  · intro km k ks p h1 h2 h3
    unfold probability
    rw [if_neg (by simpa using h1), if_pos]
    unfold column
    rw [if_neg (by omega), if_neg (by omega)]

/-- **C39 (range).** A case range that is accepted gives one row per case of the Python slice: as many rows as there are
`start + j·step` below `stop`. -/
theorem C39_rows (nCases start stop step stop' rows : Int) (h : rangeRows nCases start stop step = .ok (stop', rows)) :
    stop' = (if stop = -1 then nCases else stop) ∧ 0 < step ∧ 0 ≤ rows ∧
      ∀ j : Int, 0 ≤ j → (j < rows ↔ start + j * step < stop') := by
  have hs0 : ∃ s, s = (if stop = -1 then nCases else stop) := ⟨_, rfl⟩
  obtain ⟨s, hs0⟩ := hs0
  unfold rangeRows at h
  rw [← hs0] at h
  rw [← hs0]
  by_cases h1 : start ≥ nCases
  · rw [if_pos h1] at h; simp at h
  · rw [if_neg h1] at h
    simp only at h
    by_cases h2 : start > s
    · rw [if_pos h2] at h; simp at h
    · rw [if_neg h2] at h
      by_cases h3 : step ≤ 0
      · rw [if_pos h3] at h; simp at h
      · rw [if_neg h3] at h
        simp only [Except.ok.injEq, Prod.mk.injEq] at h
        obtain ⟨rfl, rfl⟩ := h
        set d := s - start with hd
        have hs : 0 < step := by omega
        have hd0 : 0 ≤ d := by omega
        have h4 := Int.mul_ediv_add_emod d step
        have h5 := Int.emod_nonneg d hs.ne'
        have h6 := Int.emod_lt_of_pos d hs
        have h7 : 0 ≤ d / step := Int.ediv_nonneg hd0 hs.le
        refine ⟨rfl, hs, by split <;> omega, ?_⟩
        intro j hj
        have key : start + j * step < s ↔ j * step < d := by omega
        rw [key]
        by_cases hm : d % step = 0
        · rw [if_neg (by simpa using hm)]
          constructor
          · intro hlt
            have : (j + 1) * step ≤ (d / step) * step := by
              apply mul_le_mul_of_nonneg_right (by omega) hs.le
            nlinarith
          · intro hlt
            by_contra hc
            have : (d / step) * step ≤ j * step := mul_le_mul_of_nonneg_right (by omega) hs.le
            nlinarith
        · rw [if_pos hm]
          constructor
          · intro hlt
            have : j * step ≤ (d / step) * step := mul_le_mul_of_nonneg_right (by omega) hs.le
            have : 0 < d % step := lt_of_le_of_ne h5 (Ne.symm hm)
            nlinarith
          · intro hlt
            by_contra hc
            have : (d / step + 1) * step ≤ j * step := mul_le_mul_of_nonneg_right (by omega) hs.le
            nlinarith

/-- **C39 violated (negative stop).** The documentation says that a negative `stop_case` counts backward from the end; every
negative value except -1 is refused. -/
theorem C39_fails_negative_stop (nCases start stop step : Int) (h0 : 0 ≤ start) (h1 : start < nCases) (h2 : stop < -1) :
    rangeRows nCases start stop step = .error "IndexError: start_case > stop_case" := by
  unfold rangeRows
  rw [if_neg (by omega)]
  simp only
  rw [if_neg (show ¬ stop = -1 by omega), if_pos (by omega)]

example : rangeRows 10 1 (-1) 4 = .ok (10, 3) := by decide

/-! ## Derivative of the probability -/

theorem dProbability_spec (n : Nat) (km : Membership) (ks : List ClassOut) : ∀ p : Nat → Nat → Nat → ℝ,
    (∀ k ∈ ks, k.key ∈ km.cols ∧ n ≤ k.width) →
    dProbability n km ks p = .ok (fun c a i => p c a i + (ks.map (fun k =>
      km.dpr c (km.cols.idxOf k.key) i * k.pr c a + km.pr c (km.cols.idxOf k.key) * k.dpr c a i)).sum) := by
  induction ks with
  | nil => intro p _; simp [dProbability]
  | cons k ks ih =>
    intro p h
    obtain ⟨h1, h2⟩ := h k (by simp)
    unfold dProbability
    rw [if_neg (by simpa using h1), if_neg (by simp [column_self n k.width 0 h2])]
    simp only
    rw [ih _ (fun j hj => h j (by simp [hj]))]
    congr 1
    funext c a i
    simp only [column_self n k.width a h2, Option.getD_some, List.map_cons, List.sum_cons]
    ring

/-- **C39 (derivative).** Let the constituents' probabilities be functions of a parameter `t` with the derivatives they report.  Then
`d_probability` is the derivative of `probability`, for every case and alternative. -/
theorem C39_derivative (n : Nat) (km : ℝ → Membership) (ks : ℝ → List ClassOut) (keys : List String) (cols : List String)
    (t₀ : ℝ) (i c : Nat)
    (hcols : ∀ t, (km t).cols = cols) (hkeys : ∀ t, (ks t).map ClassOut.key = keys) (hsub : ∀ s ∈ keys, s ∈ cols)
    (hw : ∀ t, ∀ k ∈ ks t, n ≤ k.width)
    (hm : ∀ j : Nat, HasDerivAt (fun t => (km t).pr c j) ((km t₀).dpr c j i) t₀)
    (hk : ∀ j a : Nat, HasDerivAt (fun t => (((ks t)[j]?).map (fun k => k.pr c a)).getD 0)
      ((((ks t₀)[j]?).map (fun k => k.dpr c a i)).getD 0) t₀) :
    ∃ (P : ℝ → Nat → Nat → ℝ) (D : Nat → Nat → Nat → ℝ),
      (∀ t, probability n (km t) (ks t) (fun _ _ => 0) = .ok (P t)) ∧
      dProbability n (km t₀) (ks t₀) (fun _ _ _ => 0) = .ok D ∧
      ∀ a, HasDerivAt (fun t => P t c a) (D c a i) t₀ := by
  have hok : ∀ t, ∀ k ∈ ks t, k.key ∈ (km t).cols ∧ n ≤ k.width := by
    intro t k hk'
    refine ⟨?_, hw t k hk'⟩
    rw [hcols t]
    exact hsub _ (by rw [← hkeys t]; exact List.mem_map_of_mem hk')
  refine ⟨_, _, fun t => C39_mixture n (km t) (ks t) (hok t), dProbability_spec n (km t₀) (ks t₀) _ (hok t₀), ?_⟩
  intro a
  simp only [zero_add]
  have hlen : ∀ t, (ks t).length = keys.length := fun t => by rw [← hkeys t, List.length_map]
  have hkey : ∀ t j (hj : j < keys.length), ((ks t)[j]'(by rw [hlen t]; exact hj)).key = keys[j] := by
    intro t j hj
    simp only [← hkeys t, List.getElem_map]
  have e1 : ∀ t, ((ks t).map (fun k => (km t).pr c ((km t).cols.idxOf k.key) * k.pr c a)).sum =
      ∑ j ∈ range keys.length, (km t).pr c (cols.idxOf (keys.getD j "")) * (((ks t)[j]?).map (fun k => k.pr c a)).getD 0 := by
    intro t
    rw [← list_sum_range]
    simp only [hcols t]
    congr 1
    apply List.ext_getElem
    · simp [hlen t]
    · intro j h1 h2
      have hj : j < keys.length := by simpa using h2
      have hj' : j < (ks t).length := by rw [hlen t]; exact hj
      simp only [List.getElem_map, List.getElem_range, List.getElem?_eq_getElem hj', Option.map_some, Option.getD_some]
      rw [hkey t j hj]
      simp [List.getD, hj]
  have e2 : ((ks t₀).map (fun k => (km t₀).dpr c ((km t₀).cols.idxOf k.key) i * k.pr c a +
      (km t₀).pr c ((km t₀).cols.idxOf k.key) * k.dpr c a i)).sum =
      ∑ j ∈ range keys.length, ((km t₀).dpr c (cols.idxOf (keys.getD j "")) i * (((ks t₀)[j]?).map (fun k => k.pr c a)).getD 0 +
        (km t₀).pr c (cols.idxOf (keys.getD j "")) * (((ks t₀)[j]?).map (fun k => k.dpr c a i)).getD 0) := by
    rw [← list_sum_range]
    simp only [hcols t₀]
    congr 1
    apply List.ext_getElem
    · simp [hlen t₀]
    · intro j h1 h2
      have hj : j < keys.length := by simpa using h2
      have hj' : j < (ks t₀).length := by rw [hlen t₀]; exact hj
      simp only [List.getElem_map, List.getElem_range, List.getElem?_eq_getElem hj', Option.map_some, Option.getD_some]
      rw [hkey t₀ j hj]
      simp [List.getD, hj]
  rw [e2]
  have := HasDerivAt.fun_sum (u := range keys.length) (x := t₀)
    (A := fun j t => (km t).pr c (cols.idxOf (keys.getD j "")) * (((ks t)[j]?).map (fun k => k.pr c a)).getD 0)
    (fun j _ => (hm (cols.idxOf (keys.getD j ""))).mul (hk j a))
  refine this.congr_of_eventuallyEq ?_
  filter_upwards with t
  exact e1 t

/-! ## Log likelihood and gradient -/

theorem caseLL_spec (n : Nat) (p ch : Nat → ℝ) : caseLL n p ch = ∑ a ∈ range n, ch a * Real.log (p a) := by
  unfold caseLL
  induction n with
  | zero => simp
  | succ n ih =>
    rw [List.range_succ, List.foldl_append, ih, Finset.sum_range_succ]
    simp only [List.foldl_cons, List.foldl_nil]
    by_cases h : ch n = 0 <;> simp [h]
    ring

/-- The weight of a case (1 without weights). -/
noncomputable def wOf (wt : Option (Nat → ℝ)) (c : Nat) : ℝ := wt.elim 1 (fun w => w c)

/-- **C39 (log likelihood).** The log likelihood computed from the probabilities is `∑ w·∑ ch·log p`. -/
theorem C39_loglike (nRows nAlts : Nat) (p ch : Nat → Nat → ℝ) (wt : Option (Nat → ℝ)) :
    Latent.loglike nRows nAlts p ch wt =
      ∑ c ∈ range nRows, wOf wt c * ∑ a ∈ range nAlts, ch c a * Real.log (p c a) := by
  unfold Latent.loglike
  induction nRows with
  | zero => simp
  | succ m ih =>
    rw [List.range_succ, List.foldl_append, ih, Finset.sum_range_succ]
    simp only [List.foldl_cons, List.foldl_nil]
    congr 1
    cases wt <;> simp [wOf, caseLL_spec, mul_comm]

theorem param_fold (dpa : Nat → ℝ) (pa cha wt : ℝ) (m : Nat) (s : GradState) :
    (List.range m).foldl (gradParam dpa pa cha wt) s =
      { buf := fun i => if i < m then dpa i * (cha / pa) / cha + dpa i * (cha / pa) * wt else s.buf i
        cum := fun i => if i < m then s.cum i + dpa i * (cha / pa) * wt else s.cum i
        bhhh := s.bhhh } := by
  induction m with
  | zero => simp
  | succ m ih =>
    rw [List.range_succ, List.foldl_append, ih]
    simp only [List.foldl_cons, List.foldl_nil, gradParam, GradState.mk.injEq, and_true]
    constructor
    · funext i
      by_cases h : i = m
      · subst h; simp
      · have h1 : (i < m + 1) = (i < m) := by
          rw [eq_iff_iff]; omega
        simp [Function.update_of_ne h, h1]
    · funext i
      by_cases h : i = m
      · subst h; simp
      · have h1 : (i < m + 1) = (i < m) := by
          rw [eq_iff_iff]; omega
        simp [Function.update_of_ne h, h1]

/-- The score of a chosen alternative. -/
noncomputable def score (dp : Nat → Nat → ℝ) (p : Nat → ℝ) (a i : Nat) : ℝ := dp a i / p a

theorem alt_fold (np : Nat) (dp : Nat → Nat → ℝ) (p ch : Nat → ℝ) (wt : ℝ) (m : Nat) (s : GradState)
    (hp : ∀ a < m, ch a ≠ 0 → 0 < p a) :
    (∀ i < np, ((List.range m).foldl (gradAlt np dp p ch wt) s).cum i =
      s.cum i + ∑ a ∈ range m, wt * ch a * score dp p a i) ∧
    (∀ v < np, ∀ v2 < np, ((List.range m).foldl (gradAlt np dp p ch wt) s).bhhh v v2 =
      s.bhhh v v2 + ∑ a ∈ range m, wt * ch a * (1 + ch a * wt) ^ 2 * (score dp p a v * score dp p a v2)) := by
  induction m with
  | zero => simp
  | succ m ih =>
    obtain ⟨i1, i2⟩ := ih (fun a ha => hp a (by omega))
    rw [List.range_succ, List.foldl_append]
    simp only [List.foldl_cons, List.foldl_nil, Finset.sum_range_succ, ← add_assoc]
    set S := (List.range m).foldl (gradAlt np dp p ch wt) s with hS
    unfold gradAlt
    by_cases h0 : ch m = 0
    · rw [if_pos h0]
      simp only [h0, mul_zero, zero_mul, add_zero]
      exact ⟨i1, i2⟩
    · have hpm := hp m (by omega) h0
      rw [if_neg h0, if_pos hpm, param_fold]
      unfold bhhhLoop
      simp only
      constructor
      · intro i hi
        rw [if_pos hi, i1 i hi]
        congr 1
        unfold score
        field_simp
      · intro v hv v2 hv2
        rw [if_pos ⟨hv, hv2⟩, if_pos hv, if_pos hv2, i2 v hv v2 hv2]
        congr 1
        unfold score
        field_simp

theorem gradient_spec (nRows np nAlts : Nat) (dp : Nat → Nat → Nat → ℝ) (p ch : Nat → Nat → ℝ) (wt : Option (Nat → ℝ))
    (hp : ∀ c < nRows, ∀ a < nAlts, ch c a ≠ 0 → 0 < p c a) :
    (∀ i < np, (gradient nRows np nAlts dp p ch wt).cum i =
      ∑ c ∈ range nRows, ∑ a ∈ range nAlts, wOf wt c * ch c a * score (dp c) (p c) a i) ∧
    (∀ v < np, ∀ v2 < np, (gradient nRows np nAlts dp p ch wt).bhhh v v2 =
      ∑ c ∈ range nRows, ∑ a ∈ range nAlts, wOf wt c * ch c a * (1 + ch c a * wOf wt c) ^ 2 *
        (score (dp c) (p c) a v * score (dp c) (p c) a v2)) := by
  unfold gradient
  induction nRows with
  | zero => simp
  | succ m ih =>
    obtain ⟨i1, i2⟩ := ih (fun c hc => hp c (by omega))
    rw [List.range_succ, List.foldl_append]
    simp only [List.foldl_cons, List.foldl_nil, Finset.sum_range_succ]
    set S := (List.range m).foldl (fun s c => gradCase np nAlts (dp c) (p c) (ch c) (wt.elim 1 (fun w => w c)) s)
      ⟨fun _ => 0, fun _ => 0, fun _ _ => 0⟩ with hS
    unfold gradCase
    obtain ⟨a1, a2⟩ := alt_fold np (dp m) (p m) (ch m) (wt.elim 1 (fun w => w m)) nAlts
      { S with buf := fun i => if i < np then 0 else S.buf i } (hp m (by omega))
    constructor
    · intro i hi
      rw [a1 i hi]
      simp only
      rw [i1 i hi]
      rfl
    · intro v hv v2 hv2
      rw [a2 v hv v2 hv2]
      simp only
      rw [i2 v hv v2 hv2]
      rfl

/-- **C39 (gradient).** Whenever chosen alternatives have positive probability and `dp` are the derivatives of `p` with respect to
parameter `i`, the gradient returned by `loglike2` is the derivative of the log likelihood returned by `loglike`. -/
theorem C39_gradient (nRows np nAlts : Nat) (p : ℝ → Nat → Nat → ℝ) (dp : Nat → Nat → Nat → ℝ) (ch : Nat → Nat → ℝ)
    (wt : Option (Nat → ℝ)) (t₀ : ℝ) (i : Nat) (hi : i < np)
    (hp : ∀ c < nRows, ∀ a < nAlts, ch c a ≠ 0 → 0 < p t₀ c a)
    (hd : ∀ c a, HasDerivAt (fun t => p t c a) (dp c a i) t₀) :
    HasDerivAt (fun t => Latent.loglike nRows nAlts (p t) ch wt) ((gradient nRows np nAlts dp (p t₀) ch wt).cum i) t₀ := by
  simp only [C39_loglike]
  rw [(gradient_spec nRows np nAlts dp (p t₀) ch wt hp).1 i hi]
  apply HasDerivAt.fun_sum
  intro c hc
  have hc' := Finset.mem_range.mp hc
  have : ∑ a ∈ range nAlts, wOf wt c * ch c a * score (dp c) (p t₀ c) a i =
      wOf wt c * ∑ a ∈ range nAlts, ch c a * score (dp c) (p t₀ c) a i := by
    rw [Finset.mul_sum]; exact Finset.sum_congr rfl (fun a _ => by ring)
  rw [this]
  apply HasDerivAt.const_mul
  apply HasDerivAt.fun_sum
  intro a ha
  have ha' := Finset.mem_range.mp ha
  by_cases h0 : ch c a = 0
  · simp only [h0, zero_mul]; exact hasDerivAt_const _ _
  · have hpos := hp c hc' a ha' h0
    exact ((hd c a).log hpos.ne').const_mul (ch c a)

/-! ## C70: the BHHH matrix -/

/-- The BHHH matrix of the literature: the weighted sum of outer products of the scores of the chosen alternatives. -/
noncomputable def bhhhSpec (nRows nAlts : Nat) (dp : Nat → Nat → Nat → ℝ) (p ch : Nat → Nat → ℝ) (w : Nat → ℝ) (v v2 : Nat) : ℝ :=
  ∑ c ∈ range nRows, ∑ a ∈ range nAlts, w c * ch c a * ((dp c a v / p c a) * (dp c a v2 / p c a))

/-- **C70 violated.** Because one buffer serves as both output and temporary, each outer product is multiplied by
`(1 + ch·w)²`.  For ordinary data (each choice 0 or 1, no weights) the returned matrix is FOUR times the BHHH matrix,
whatever the number of cases, alternatives and parameters. -/
theorem C70_fails_bhhh (nRows np nAlts : Nat) (dp : Nat → Nat → Nat → ℝ) (p ch : Nat → Nat → ℝ)
    (hp : ∀ c < nRows, ∀ a < nAlts, ch c a ≠ 0 → 0 < p c a) (hch : ∀ c a, ch c a = 0 ∨ ch c a = 1)
    (v v2 : Nat) (hv : v < np) (hv2 : v2 < np) :
    (gradient nRows np nAlts dp p ch none).bhhh v v2 = 4 * bhhhSpec nRows nAlts dp p ch (fun _ => 1) v v2 := by
  rw [(gradient_spec nRows np nAlts dp p ch none hp).2 v hv v2 hv2]
  unfold bhhhSpec
  rw [Finset.mul_sum]
  refine Finset.sum_congr rfl (fun c _ => ?_)
  rw [Finset.mul_sum]
  refine Finset.sum_congr rfl (fun a _ => ?_)
  have hw : wOf none c = 1 := rfl
  rw [hw]
  unfold score
  rcases hch c a with h | h <;> rw [h] <;> ring

/-- With one case, one parameter and a score of 1, the code returns 4 where 1 is right. -/
example : (gradient 1 1 1 (fun _ _ _ => 1) (fun _ _ => 1) (fun _ _ => 1) none).bhhh 0 0 = 4 ∧
    bhhhSpec 1 1 (fun _ _ _ => 1) (fun _ _ => 1) (fun _ _ => 1) (fun _ => 1) 0 0 = 1 := by
  have h := C70_fails_bhhh 1 1 1 (fun _ _ _ => 1) (fun _ _ => 1) (fun _ _ => 1) (by simp) (by simp) 0 0 (by simp) (by simp)
  have h2 : bhhhSpec 1 1 (fun _ _ _ => 1) (fun _ _ => 1) (fun _ _ => 1) (fun _ => 1) 0 0 = 1 := by simp [bhhhSpec]
  rw [h2] at h
  exact ⟨by rw [h]; norm_num, h2⟩

/-- **C70 (what is returned).** In general. -/
theorem C70_bhhh_partial (nRows np nAlts : Nat) (dp : Nat → Nat → Nat → ℝ) (p ch : Nat → Nat → ℝ) (w : Nat → ℝ)
    (hp : ∀ c < nRows, ∀ a < nAlts, ch c a ≠ 0 → 0 < p c a) (v v2 : Nat) (hv : v < np) (hv2 : v2 < np) :
    (gradient nRows np nAlts dp p ch (some w)).bhhh v v2 = ∑ c ∈ range nRows, ∑ a ∈ range nAlts,
      (1 + ch c a * w c) ^ 2 * (w c * ch c a * ((dp c a v / p c a) * (dp c a v2 / p c a))) := by
  rw [(gradient_spec nRows np nAlts dp p ch (some w) hp).2 v hv v2 hv2]
  refine Finset.sum_congr rfl (fun c _ => Finset.sum_congr rfl (fun a _ => ?_))
  have hw : wOf (some w) c = w c := rfl
  rw [hw]
  unfold score
  ring

/-! ## C71: one parameter frame for all constituents -/

open Larch.Params in
theorem join_aux (l : List Row) : ∀ acc : List Row, (acc.map Row.name).Nodup →
    let res := l.foldl (fun acc r => if r.name ∈ acc.map Row.name then acc else acc ++ [r]) acc
    (res.map Row.name).Nodup ∧ ∀ n, rowOf res n = (rowOf acc n).or (rowOf l n) := by
  induction l with
  | nil => intro acc h; exact ⟨h, fun n => by simp [rowOf]⟩
  | cons r l ih =>
    intro acc h
    simp only [List.foldl_cons]
    by_cases hr : r.name ∈ acc.map Row.name
    · rw [if_pos hr]
      obtain ⟨h1, h2⟩ := ih acc h
      refine ⟨h1, fun n => ?_⟩
      rw [h2 n]
      by_cases hn : r.name = n
      · subst hn
        obtain ⟨q, hq⟩ := get_isSome hr
        rw [hq]; rfl
      · congr 1
        unfold rowOf
        rw [List.find?_cons]
        have : (r.name == n) = false := by simpa using hn
        rw [this]
    · rw [if_neg hr]
      have hnd : ((acc ++ [r]).map Row.name).Nodup := by
        rw [List.map_append, List.nodup_append]
        refine ⟨h, by simp, ?_⟩
        intro a ha b hb hab
        simp at hb
        subst hab hb
        exact hr ha
      obtain ⟨h1, h2⟩ := ih (acc ++ [r]) hnd
      refine ⟨h1, fun n => ?_⟩
      rw [h2 n, get_append, Option.or_assoc]
      congr 1
      unfold rowOf
      rw [List.find?_cons, List.find?_cons]
      split <;> simp

open Larch.Params in
/-- **C71 (first wins).** The joined frame holds every parameter of every constituent once; one that occurs in several
constituents gets the row of the first of them (latent class model, membership model, classes in order). -/
theorem C71_joined (fs : List (List Row)) :
    ((joinFrames fs).map Row.name).Nodup ∧ ∀ n, rowOf (joinFrames fs) n = rowOf fs.flatten n := by
  obtain ⟨h1, h2⟩ := join_aux fs.flatten [] (by simp)
  refine ⟨h1, fun n => ?_⟩
  have := h2 n
  unfold joinFrames
  rw [this]; simp [rowOf]

/-- The heap is well formed: every reference was allocated. -/
def HeapOk (h : Heap) : Prop := ∀ a ∈ h.ref, a < h.next

theorem setFrame_eq (h : Heap) (new addr : Nat) (he : h.frames addr = h.frames new) : setFrame h new addr = addr := if_pos he

theorem setFrame_ne (h : Heap) (new addr : Nat) (he : h.frames addr ≠ h.frames new) : setFrame h new addr = new := if_neg he

/-- **C71 (sharing).** After synchronisation, if no constituent's own frame happened to be equal to the joined one, all
constituents hold the same object: values given to `loglike(x)` are seen by every one of them. -/
theorem C71_shared (h : Heap) (hok : HeapOk h) (hlen : 2 ≤ h.ref.length)
    (hne : ∀ a ∈ h.ref, h.frames a ≠ joinFrames (h.ref.map h.frames)) (hns : ∃ a ∈ h.ref, ∃ b ∈ h.ref, a ≠ b)
    (f : List Params.Row → List Params.Row) (i : Nat) (hi : i < h.ref.length) :
    sees (Latent.prep (syncFrames h) f) i = some (f (joinFrames (h.ref.map h.frames))) := by
  have hsync : (syncFrames h) = ⟨Function.update h.frames h.next (joinFrames (h.ref.map h.frames)), h.next + 1,
      h.ref.map (fun _ => h.next)⟩ := by
    unfold syncFrames
    cases hr : h.ref with
    | nil => rw [hr] at hi; simp at hi
    | cons a rest =>
      simp only
      rw [if_neg]
      · simp only [← hr, Heap.mk.injEq, true_and]
        apply List.map_congr_left
        intro b hb
        apply setFrame_ne
        simp only
        rw [Function.update_self, Function.update_of_ne (hok b hb).ne]
        exact hne b hb
      · intro hall
        obtain ⟨x, hx, y, hy, hxy⟩ := hns
        rw [hr] at hx hy
        have h1 : x = a := by rcases List.mem_cons.mp hx with h | h; exact h; exact hall x h
        have h2 : y = a := by rcases List.mem_cons.mp hy with h | h; exact h; exact hall y h
        exact hxy (h1.trans h2.symm)
  rw [hsync]
  obtain ⟨a, b, rest, hr⟩ : ∃ a b rest, h.ref = a :: b :: rest := by
    match hh : h.ref, hlen with
    | a :: b :: rest, _ => exact ⟨a, b, rest, rfl⟩
  have hr' : h.ref.map (fun _ => h.next) = h.next :: h.next :: rest.map (fun _ => h.next) := by rw [hr]; rfl
  unfold Latent.prep
  simp only [hr']
  unfold sees write
  simp only [← hr']
  rw [List.getElem?_map, List.getElem?_eq_getElem hi]
  simp

/-- The situation of the theorem: an empty latent class frame, a membership model with `w`, two classes sharing `b`. -/
example (r : String → Params.Row) (hr : ∀ n, (r n).name = n) :
    let h : Heap := ⟨fun a => if a = 1 then [r "w"] else if a = 2 then [r "b"] else if a = 3 then [r "b", r "c"] else [], 4, [0, 1, 2, 3]⟩
    HeapOk h ∧ (∀ a ∈ h.ref, h.frames a ≠ joinFrames (h.ref.map h.frames)) ∧ (∃ a ∈ h.ref, ∃ b ∈ h.ref, a ≠ b) ∧
      joinFrames (h.ref.map h.frames) = [r "w", r "b", r "c"] := by
  intro h
  have e : joinFrames (h.ref.map h.frames) = [r "w", r "b", r "c"] := by simp [h, joinFrames, hr]
  refine ⟨by intro a ha; simp only [h, List.mem_cons, List.not_mem_nil, or_false] at ha ⊢; omega, ?_, ⟨0, by simp [h], 1, by simp [h], by decide⟩, e⟩
  intro a ha
  rw [e]
  simp only [h, List.mem_cons, List.not_mem_nil, or_false] at ha
  rcases ha with rfl | rfl | rfl | rfl <;> simp [h]

/-- **C71 violated (frame given).** A latent class model constructed with a `frame` that already lists every parameter keeps that
object for itself, because it equals the joined frame; the constituents get another.  Values set on the latent class model
are then not seen by any constituent whose own frame was different. -/
theorem C71_fails_given_frame (h : Heap) (hok : HeapOk h) (a : Nat) (rest : List Nat) (hr : h.ref = a :: rest)
    (heq : joinFrames (h.ref.map h.frames) = h.frames a) (i : Nat) (b : Nat) (hb : rest[i]? = some b)
    (hne : h.frames b ≠ h.frames a) (f : List Params.Row → List Params.Row) :
    sees (write (syncFrames h) a f) 0 = some (f (h.frames a)) ∧
    sees (write (syncFrames h) a f) (i + 1) = some (h.frames a) := by
  have ha : a < h.next := hok a (by rw [hr]; simp)
  have hbm : b ∈ rest := List.mem_of_getElem? hb
  have hbn : b < h.next := hok b (by rw [hr]; simp [hbm])
  have hsync : ∃ g : Nat → Nat, g a = a ∧ g b = h.next ∧
      syncFrames h = ⟨Function.update h.frames h.next (h.frames a), h.next + 1, h.ref.map g⟩ := by
    refine ⟨setFrame ⟨Function.update h.frames h.next (h.frames a), h.next + 1, h.ref⟩ h.next, ?_, ?_, ?_⟩
    · apply setFrame_eq; simp [Function.update_of_ne ha.ne]
    · apply setFrame_ne; simpa [Function.update_of_ne hbn.ne] using hne
    unfold syncFrames
    simp only [hr]
    rw [if_neg]
    · simp only [← hr, heq]
    · intro hall
      exact hne (by rw [hall b hbm])
  obtain ⟨g, ga, gb, hsync⟩ := hsync
  rw [hsync]
  unfold sees write
  simp only
  rw [hr]
  constructor
  · simp [ga, Function.update_of_ne ha.ne]
  · simp only [List.map_cons, List.getElem?_cons_succ, List.getElem?_map, hb, Option.map_some, gb]
    rw [Function.update_of_ne (by omega), Function.update_self]

/-- **C71 violated (membership model complete).** The same happens when the membership model already has every parameter: values
given to `loglike(x)` are set on the membership model only. -/
theorem C71_fails_membership (r r' q : Params.Row) (hn : r.name ≠ q.name) :
    let h : Heap := ⟨fun a => if a = 1 then [r, q] else if a = 2 then [q] else [], 3, [0, 1, 2]⟩
    sees (Latent.prep (syncFrames h) (fun _ => [r', q])) 1 = some [r', q] ∧
    sees (Latent.prep (syncFrames h) (fun _ => [r', q])) 2 = some [r, q] := by
  intro h
  have e : joinFrames (h.ref.map h.frames) = [r, q] := by simp [h, joinFrames, hn]
  have hsync : syncFrames h = ⟨Function.update h.frames 3 [r, q], 4, [3, 1, 3]⟩ := by
    unfold syncFrames
    simp only [h]
    rw [if_neg (by simp)]
    rw [show joinFrames (List.map (fun a => if a = 1 then [r, q] else if a = 2 then [q] else []) [0, 1, 2]) = [r, q] from e]
    simp [setFrame]
  rw [hsync]
  simp [Latent.prep, write, sees, Function.update, h]

/-- **C71 violated (later changes).** After construction the Python-level flag is off, and nothing but `unmangle(True)` synchronises
again: `mangle()` followed by `unmangle()` leaves the references as they are. -/
theorem C71_fails_resync (fl : Flags) (h : Heap) :
    (Latent.unmangle false (mangleFlags (Latent.unmangle false fl h).1) (Latent.unmangle false fl h).2).2 =
      (Latent.unmangle false fl h).2 := by
  unfold Latent.unmangle mangleFlags
  cases fl.python <;> simp

/-- So a parameter added to a class after construction detaches that class: it holds a new frame, and values given to
`loglike(x)` do not reach it. -/
theorem C71_fails_detached (h : Heap) (hok : HeapOk h) (s : Nat) (hs : ∀ a ∈ h.ref, a = s) (i : Nat) (hi : i < h.ref.length)
    (h2 : 2 ≤ i) (r : Params.Row) (hr : r.name ∉ (h.frames s).map Params.Row.name)
    (f : List Params.Row → List Params.Row) (fl : Flags) (hfl : fl.python = false) :
    sees (Latent.prep (Latent.unmangle false (mangleFlags fl) (rescan h i [r])).2 f) 1 = some (f (h.frames s)) ∧
    sees (Latent.prep (Latent.unmangle false (mangleFlags fl) (rescan h i [r])).2 f) i = some (h.frames s ++ [r]) := by
  have hu : (Latent.unmangle false (mangleFlags fl) (rescan h i [r])).2 = rescan h i [r] := by
    unfold Latent.unmangle mangleFlags
    simp [hfl]
  rw [hu]
  have hgi : h.ref[i]? = some s := by rw [List.getElem?_eq_getElem hi, hs _ (List.getElem_mem hi)]
  have hsn : s < h.next := hok s (List.mem_of_getElem? hgi)
  have hre : rescan h i [r] = ⟨Function.update h.frames h.next (h.frames s ++ [r]), h.next + 1, h.ref.set i h.next⟩ := by
    unfold rescan
    rw [hgi]
    have : [r].filter (fun q => q.name ∉ (h.frames s).map Params.Row.name) = [r] := by
      rw [List.filter_eq_self]; intro q hq; simp only [List.mem_singleton] at hq; subst hq; simpa using hr
    simp only [this]
  rw [hre]
  obtain ⟨a, b, rest, hrr⟩ : ∃ a b rest, h.ref = a :: b :: rest := by
    match hh : h.ref, (show 2 ≤ h.ref.length by omega) with
    | a :: b :: rest, _ => exact ⟨a, b, rest, rfl⟩
  obtain ⟨j, rfl⟩ : ∃ j, i = j + 2 := ⟨i - 2, by omega⟩
  have hb : b = s := hs b (by rw [hrr]; simp)
  have hset : h.ref.set (j + 2) h.next = a :: b :: rest.set j h.next := by rw [hrr]; rfl
  have hj : j < rest.length := by rw [hrr] at hi; simpa using hi
  unfold Latent.prep
  simp only [hset]
  unfold write sees
  simp only [List.getElem?_cons_succ, List.getElem?_cons_zero, Option.map_some]
  constructor
  · rw [hb, Function.update_self, Function.update_of_ne hsn.ne]
  · rw [List.getElem?_set_self hj]
    simp only [Option.map_some]
    rw [Function.update_of_ne (by omega), Function.update_self]

end Larch.Props
