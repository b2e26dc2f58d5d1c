import Verif.Model.Standardize
import Mathlib.Algebra.BigOperators.Ring.List
import Mathlib.Algebra.Order.BigOperators.Group.List
import Mathlib.Algebra.BigOperators.Field
import Mathlib.Algebra.BigOperators.Intervals
import Mathlib.Tactic.FieldSimp
import Mathlib.Tactic.Ring
import Mathlib.Tactic.Linarith
import Mathlib.Tactic.NormNum
import Mathlib.Order.Bounds.Basic

/-!
# C83: standardized data
-/

namespace Larch.Props

open Larch.Standardize

/-! ## Specification -/

/-- The values of a variable over the available alternatives. -/
def availVals (av : List Bool) (t : T) (j : Nat) : List ℝ := ((List.range t.nRows).filter (fun i => av.getD i false)).map (fun i => t.x i j)

/-- The values have the extremes 0 and/or 1. -/
def UnitRange (vs : List ℝ) : Prop :=
  ∃ M m, IsGreatest {v | v ∈ vs} M ∧ IsLeast {v | v ∈ vs} m ∧ (M = 0 ∨ M = 1) ∧ (m = 0 ∨ m = 1)

/-- The utility of row `i` with the parameters `b`. -/
def utilOf (b : Nat → ℝ) (t : T) (i : Nat) : ℝ := ∑ j ∈ Finset.range t.nCols, b j * t.x i j

/-! ## Lemmas -/

theorem foldl_max_spec (l : List ℝ) : ∀ a, IsGreatest {v | v ∈ a :: l} (l.foldl max a) := by
  induction l with
  | nil => intro a; simp [IsGreatest, upperBounds]
  | cons b l ih =>
    intro a
    rw [List.foldl_cons]
    obtain ⟨h1, h2⟩ := ih (max a b)
    have hmax : max a b ≤ l.foldl max (max a b) := h2 (by simp)
    constructor
    · simp only [List.mem_cons, Set.mem_setOf_eq] at h1 ⊢
      rcases h1 with h | h
      · rcases max_choice a b with h' | h'
        · left; rw [h, h']
        · right; left; rw [h, h']
      · right; right; exact h
    · intro v hv
      simp only [List.mem_cons, Set.mem_setOf_eq] at hv
      rcases hv with rfl | rfl | hv
      · exact le_trans (le_max_left _ _) hmax
      · exact le_trans (le_max_right _ _) hmax
      · exact h2 (by simp [hv])

theorem foldl_min_spec (l : List ℝ) : ∀ a, IsLeast {v | v ∈ a :: l} (l.foldl min a) := by
  induction l with
  | nil => intro a; simp [IsLeast, lowerBounds]
  | cons b l ih =>
    intro a
    rw [List.foldl_cons]
    obtain ⟨h1, h2⟩ := ih (min a b)
    have hmin : l.foldl min (min a b) ≤ min a b := h2 (by simp)
    constructor
    · simp only [List.mem_cons, Set.mem_setOf_eq] at h1 ⊢
      rcases h1 with h | h
      · rcases min_choice a b with h' | h'
        · left; rw [h, h']
        · right; left; rw [h, h']
      · right; right; exact h
    · intro v hv
      simp only [List.mem_cons, Set.mem_setOf_eq] at hv
      rcases hv with rfl | rfl | hv
      · exact le_trans hmin (min_le_left _ _)
      · exact le_trans hmin (min_le_right _ _)
      · exact h2 (by simp [hv])

theorem nonScale_iff {vs : List ℝ} (h : vs ≠ []) : NonScale vs ↔ UnitRange vs := by
  cases vs with
  | nil => exact absurd rfl h
  | cons a l =>
    have h1 := foldl_max_spec l a
    have h2 := foldl_min_spec l a
    constructor
    · rintro ⟨hM, hm⟩; exact ⟨_, _, h1, h2, hM, hm⟩
    · rintro ⟨M, m, g1, g2, hM, hm⟩
      exact ⟨by rw [show maxL (a :: l) = M from h1.unique g1]; exact hM, by rw [show minL (a :: l) = m from h2.unique g2]; exact hm⟩

/-- A mask with one element for each row is applied by rows. -/
theorem alignMask_rows (nRows nCols : Nat) (mask : List Bool) (h : mask.length = nRows) :
    ∃ m, alignMask nRows nCols mask = some m ∧ ∀ i < nRows, ∀ j < nCols, m i j = mask.getD i false := by
  unfold alignMask
  by_cases h1 : mask.length = 1
  · rw [if_pos h1]
    exact ⟨_, rfl, fun i hi j _ => by rw [show i = 0 by omega]⟩
  rw [if_neg h1]
  by_cases h2 : mask.length = nRows * nCols
  · rw [if_pos h2]
    refine ⟨_, rfl, fun i hi j hj => ?_⟩
    have : nCols = 1 := by
      rw [h] at h2
      have : nRows * 1 = nRows * nCols := by omega
      exact (Nat.eq_of_mul_eq_mul_left (by omega) this).symm
    subst this
    rw [show j = 0 by omega]; simp
  rw [if_neg h2, if_pos h]
  exact ⟨_, rfl, fun _ _ _ _ => rfl⟩

theorem sum_sub (vs : List ℝ) (c : ℝ) : (vs.map (fun v => v - c)).sum = vs.sum - vs.length * c := by
  induction vs with
  | nil => simp
  | cons a l ih => simp only [List.map_cons, List.sum_cons, ih, List.length_cons, Nat.cast_add, Nat.cast_one]; ring

theorem sum_div (vs : List ℝ) (f : ℝ → ℝ) (c : ℝ) : (vs.map (fun v => f v / c)).sum = (vs.map f).sum / c := by
  induction vs with
  | nil => simp
  | cons a l ih => simp only [List.map_cons, List.sum_cons, ih]; ring

theorem mean_centered {vs : List ℝ} (h : vs ≠ []) (s : ℝ) : (vs.map (fun v => (v - mean vs) / s)).sum = 0 := by
  rw [sum_div, sum_sub]
  unfold mean
  have : (vs.length : ℝ) ≠ 0 := by simpa using h
  rw [mul_div_cancel₀ _ this, sub_self, zero_div]

theorem sq_sum_nonneg (vs : List ℝ) (c : ℝ) : 0 ≤ (vs.map (fun v => (v - c) ^ 2)).sum := by
  apply List.sum_nonneg
  intro x hx
  rw [List.mem_map] at hx
  obtain ⟨v, _, rfl⟩ := hx
  positivity

theorem std_scaled {vs : List ℝ} (hs : std vs ≠ 0) : (vs.map (fun v => ((v - mean vs) / std vs) ^ 2)).sum = (vs.length : ℝ) := by
  have h0 : (vs.length : ℝ) ≠ 0 := by
    intro h; apply hs; unfold std; rw [h, div_zero, Real.sqrt_zero]
  have h1 : std vs ^ 2 = (vs.map (fun v => (v - mean vs) ^ 2)).sum / vs.length := by
    unfold std
    rw [Real.sq_sqrt]
    exact div_nonneg (sq_sum_nonneg _ _) (Nat.cast_nonneg _)
  have : (fun v => ((v - mean vs) / std vs) ^ 2) = fun v => (v - mean vs) ^ 2 / (std vs ^ 2) := by
    funext v; rw [div_pow]
  rw [this, sum_div, h1]
  have h2 : (vs.map (fun v => (v - mean vs) ^ 2)).sum ≠ 0 := by
    intro h; rw [h, zero_div] at h1; exact hs (by simpa using h1)
  field_simp

theorem std_zero_iff {vs : List ℝ} (h : vs ≠ []) : std vs = 0 ↔ ∀ v ∈ vs, v = mean vs := by
  have h0 : (0 : ℝ) < vs.length := by
    have := List.length_pos_iff.mpr h
    exact_mod_cast this
  unfold std
  rw [Real.sqrt_eq_zero (div_nonneg (sq_sum_nonneg _ _) h0.le), div_eq_zero_iff]
  constructor
  · rintro (hs | hs)
    · intro v hv
      have hle := List.single_le_sum (l := vs.map (fun v => (v - mean vs) ^ 2)) (by
        intro x hx; rw [List.mem_map] at hx; obtain ⟨w, _, rfl⟩ := hx; positivity) _ (List.mem_map.mpr ⟨v, hv, rfl⟩)
      rw [hs] at hle
      have : (v - mean vs) ^ 2 = 0 := le_antisymm hle (sq_nonneg _)
      have := pow_eq_zero_iff (two_ne_zero) |>.mp this
      linarith
    · exact absurd hs h0.ne'
  · intro hv
    left
    apply List.sum_eq_zero
    intro x hx
    rw [List.mem_map] at hx
    obtain ⟨v, hvv, rfl⟩ := hx
    rw [← hv v hvv, sub_self]; simp

theorem std_nonneg (vs : List ℝ) : 0 ≤ std vs := Real.sqrt_nonneg _

/-- The scale is never zero or negative. -/
theorem scale_pos (wm ws : Bool) (t : T) (m : Nat → Nat → Bool) (j : Nat) : 0 < (fitCols wm ws t m).scale j := by
  unfold fitCols
  simp only
  split
  · exact one_pos
  · split
    · exact one_pos
    · rename_i h; exact lt_of_le_of_ne (std_nonneg _) (Ne.symm h)

theorem colVals_avail {t : T} {av : List Bool} {m : Nat → Nat → Bool} (hl : av.length = t.nRows)
    (hm : ∀ i < t.nRows, ∀ j < t.nCols, m i j = (av.map (fun a => !a)).getD i false) {j : Nat} (hj : j < t.nCols) : colVals t m j = availVals av t j := by
  unfold colVals availVals
  congr 1
  apply List.filter_congr
  intro i hi
  rw [List.mem_range] at hi
  rw [hm i hi j hj]
  have hi' : i < av.length := by omega
  simp [hi']

/-! ## Theorems -/

/-- **C83 (alternative-specific data).** With idca data (one row for each case and alternative) `standardize()` returns; in each variable, the values
of available alternatives that have only the extremes 0 and/or 1 are left as they are, and else are moved and scaled to have mean zero and, unless
they are all the same, standard deviation one. -/
theorem C83_standardized (d : Data) (t : T) (hca : d.ca = some t) (hco : d.co = none) (hce : d.ce = none) (hl : d.av.length = t.nRows) :
    ∃ t' sc, standardize true true d = ({ d with ca := some t' }, none, sc) ∧ t'.nRows = t.nRows ∧ t'.nCols = t.nCols ∧
      ∀ j < t.nCols, availVals d.av t j ≠ [] →
        (UnitRange (availVals d.av t j) → ∀ i, t'.x i j = t.x i j) ∧
        (¬ UnitRange (availVals d.av t j) → (availVals d.av t' j).sum = 0 ∧
          ((∃ v ∈ availVals d.av t j, ∃ w ∈ availVals d.av t j, v ≠ w) →
            ((availVals d.av t' j).map (fun v => v ^ 2)).sum = ((availVals d.av t' j).length : ℝ))) := by
  obtain ⟨m, hm, hmr⟩ := alignMask_rows t.nRows t.nCols (d.av.map (fun a => !a)) (by simpa using hl)
  refine ⟨transform (fitCols true true t m) t, ⟨some (fitCols true true t m), none, none⟩, ?_, rfl, rfl, ?_⟩
  · unfold standardize
    simp only [hca, part, fit, hm, Option.map_some, hco, hce]
  · intro j hj hne
    have hcv := colVals_avail hl hmr hj
    have hx : ∀ i, (transform (fitCols true true t m) t).x i j = (t.x i j - (fitCols true true t m).mean j) / (fitCols true true t m).scale j :=
      fun i => rfl
    have hav : availVals d.av (transform (fitCols true true t m) t) j =
        (availVals d.av t j).map (fun v => (v - (fitCols true true t m).mean j) / (fitCols true true t m).scale j) := by
      unfold availVals
      rw [List.map_map]; rfl
    refine ⟨fun hu i => ?_, fun hu => ?_⟩
    · have hns : NonScale (colVals t m j) := by rw [hcv]; exact (nonScale_iff hne).mpr hu
      rw [hx]
      unfold fitCols
      simp only [hns, and_self, if_true, sub_zero, div_one]
    · have hns : ¬ NonScale (colVals t m j) := by rw [hcv]; exact fun h => hu ((nonScale_iff hne).mp h)
      have hmean : (fitCols true true t m).mean j = mean (availVals d.av t j) := by
        unfold fitCols
        beta_reduce
        dsimp only
        rw [if_neg (fun h => hns h.2), hcv]
      rw [hav, hmean]
      refine ⟨mean_centered hne _, ?_⟩
      rintro ⟨v, hv, w, hw, hvw⟩
      have hs : std (availVals d.av t j) ≠ 0 := by
        intro h
        have := (std_zero_iff hne).mp h
        exact hvw ((this v hv).trans (this w hw).symm)
      have hscale : (fitCols true true t m).scale j = std (availVals d.av t j) := by
        unfold fitCols
        beta_reduce
        dsimp only
        rw [if_neg (fun h => hns h.2), hcv, if_neg hs]
      rw [hscale, List.map_map, List.length_map]
      exact std_scaled hs

/-- Every cell of a part is moved and scaled by numbers of its column, the scale being positive. -/
theorem transform_affine (s : Scaler) (hs : ∀ j, 0 < s.scale j) : ∃ c k : Nat → ℝ, (∀ j, 0 < k j) ∧
    ∀ t i j, (transform s t).x i j = (t.x i j - c j) / k j := by
  refine ⟨fun j => if s.withMean then s.mean j else 0, fun j => if s.withStd then s.scale j else 1, fun j => ?_, fun t i j => ?_⟩
  · simp only; split
    · exact hs j
    · exact one_pos
  · show cell s j (t.x i j) = _
    unfold cell
    cases s.withMean <;> cases s.withStd <;> simp

/-- **C83 (the model is the same).** Standardizing does not change what a model can say: for any parameters there are others, and a constant, such that
the utility in every row of standardized data is the utility before less the constant (so that all differences between alternatives and all
choice probabilities are the same).  The same parameters and constant serve for other data standardized `same_as` the first. -/
theorem C83_same_model (wm ws : Bool) (d other : Data) (t u : T) (hca : d.ca = some t) (hco : d.co = none) (hce : d.ce = none)
    (hl : d.av.length = t.nRows) (hu : other.ca = some u) (huo : other.co = none) (hue : other.ce = none) (hcols : u.nCols = t.nCols) (b : Nat → ℝ) :
    ∃ t' u' sc, standardize wm ws d = ({ d with ca := some t' }, none, sc) ∧ standardizeAs sc other = ({ other with ca := some u' }, none) ∧
      ∃ (b' : Nat → ℝ) (c : ℝ), (∀ i, utilOf b' t' i = utilOf b t i - c) ∧ (∀ i, utilOf b' u' i = utilOf b u i - c) := by
  obtain ⟨m, hm, -⟩ := alignMask_rows t.nRows t.nCols (d.av.map (fun a => !a)) (by simpa using hl)
  obtain ⟨c, k, hk, ht⟩ := transform_affine (fitCols wm ws t m) (scale_pos wm ws t m)
  refine ⟨transform (fitCols wm ws t m) t, transform (fitCols wm ws t m) u, ⟨some (fitCols wm ws t m), none, none⟩, ?_, ?_,
    fun j => b j * k j, ∑ j ∈ Finset.range t.nCols, b j * c j, fun i => ?_, fun i => ?_⟩
  · unfold standardize
    simp only [hca, part, fit, hm, Option.map_some, hco, hce]
  · unfold standardizeAs
    simp only [hu, usePart, huo, hue]
  · unfold utilOf
    show ∑ j ∈ Finset.range t.nCols, _ = _
    rw [← Finset.sum_sub_distrib]
    apply Finset.sum_congr rfl
    intro j _
    rw [ht]
    have := (hk j).ne'
    field_simp
  · unfold utilOf
    rw [show (transform (fitCols wm ws t m) u).nCols = u.nCols from rfl, hcols, ← Finset.sum_sub_distrib]
    apply Finset.sum_congr rfl
    intro j _
    rw [ht]
    have := (hk j).ne'
    field_simp

/-- **C83 (once is enough).** Standardizing a second time changes nothing, for the values of available alternatives or otherwise: every variable keeps its
values, unless it has no available value at all. -/
theorem C83_idempotent (d : Data) (t : T) (hca : d.ca = some t) (hco : d.co = none) (hce : d.ce = none) (hl : d.av.length = t.nRows)
    (hne : ∀ j < t.nCols, availVals d.av t j ≠ []) :
    ∃ t' t'' sc sc', standardize true true d = ({ d with ca := some t' }, none, sc) ∧
      standardize true true { d with ca := some t' } = ({ d with ca := some t'' }, none, sc') ∧ ∀ i, ∀ j < t.nCols, t''.x i j = t'.x i j := by
  obtain ⟨t', sc, h1, hr, hcl, hspec⟩ := C83_standardized d t hca hco hce hl
  obtain ⟨m, hm, hmr⟩ := alignMask_rows t'.nRows t'.nCols (d.av.map (fun a => !a)) (by rw [hr]; simpa using hl)
  refine ⟨t', transform (fitCols true true t' m) t', sc, ⟨some (fitCols true true t' m), none, none⟩, h1, ?_, ?_⟩
  · unfold standardize
    simp only [part, fit, hm, Option.map_some, hco, hce]
  · intro i j hj
    have hcv : colVals t' m j = availVals d.av t' j := colVals_avail (by rw [hr]; exact hl) hmr (by rw [hcl]; exact hj)
    have hx : (transform (fitCols true true t' m) t').x i j = (t'.x i j - (fitCols true true t' m).mean j) / (fitCols true true t' m).scale j := rfl
    obtain ⟨hsp1, hsp2⟩ := hspec j hj (hne j hj)
    have hlen : (availVals d.av t' j).length = (availVals d.av t j).length := by unfold availVals; simp [hr]
    have hne' : availVals d.av t' j ≠ [] := by
      rw [← List.length_pos_iff, hlen, List.length_pos_iff]; exact hne j hj
    rw [hx]
    by_cases hns : NonScale (colVals t' m j)
    · unfold fitCols
      dsimp only
      rw [if_pos ⟨rfl, hns⟩, if_pos ⟨rfl, hns⟩, sub_zero, div_one]
    · have hu' : ¬ UnitRange (availVals d.av t' j) := by rw [hcv] at hns; exact fun h => hns ((nonScale_iff hne').mpr h)
      have hu : ¬ UnitRange (availVals d.av t j) := by
        intro h
        apply hu'
        have : availVals d.av t' j = availVals d.av t j := by
          unfold availVals
          rw [hr]
          apply List.map_congr_left
          intro k _
          exact hsp1 h k
        rw [this]; exact h
      obtain ⟨hz, hsd⟩ := hsp2 hu
      have hmean : (fitCols true true t' m).mean j = 0 := by
        unfold fitCols
        dsimp only
        rw [if_neg (fun h => hns h.2), hcv]
        unfold mean
        rw [hz, zero_div]
      have hscale : (fitCols true true t' m).scale j = 1 := by
        unfold fitCols
        dsimp only
        rw [if_neg (fun h => hns h.2), hcv]
        by_cases hs : std (availVals d.av t' j) = 0
        · rw [if_pos hs]
        · rw [if_neg hs]
          have hdiff : ∃ v ∈ availVals d.av t j, ∃ w ∈ availVals d.av t j, v ≠ w := by
            by_contra hc
            push Not at hc
            -- all values of the variable are the same, so all standardized values are zero: a unit range
            apply hu'
            obtain ⟨v0, hv0⟩ := List.exists_mem_of_ne_nil _ (hne j hj)
            have hall : ∀ v ∈ availVals d.av t' j, v = 0 := by
              have hrep : ∀ v ∈ availVals d.av t' j, ∀ w ∈ availVals d.av t' j, v = w := by
                intro v hv w hw
                unfold availVals at hv hw
                rw [List.mem_map] at hv hw
                obtain ⟨a, ha, rfl⟩ := hv
                obtain ⟨b, hb, rfl⟩ := hw
                have e1 : t.x a j ∈ availVals d.av t j := List.mem_map.mpr ⟨a, by rw [← hr]; exact ha, rfl⟩
                have e2 : t.x b j ∈ availVals d.av t j := List.mem_map.mpr ⟨b, by rw [← hr]; exact hb, rfl⟩
                have e3 := hc _ e1 _ e2
                -- the same cell function was used
                obtain ⟨m0, hm0, -⟩ := alignMask_rows t.nRows t.nCols (d.av.map (fun a => !a)) (by simpa using hl)
                have ht' : t' = transform (fitCols true true t m0) t := by
                  unfold standardize at h1
                  simp only [hca, part, fit, hm0, Option.map_some, hco, hce, Prod.mk.injEq, Data.mk.injEq, Option.some.injEq] at h1
                  exact h1.1.2.1.symm
                rw [ht']
                exact congrArg (cell (fitCols true true t m0) j) e3
              intro v hv
              have hsum : (availVals d.av t' j).sum = (availVals d.av t' j).length * v := by
                have : availVals d.av t' j = List.replicate (availVals d.av t' j).length v :=
                  List.eq_replicate_iff.mpr ⟨rfl, fun w hw => hrep w hw v hv⟩
                rw [this]; simp
              rw [hz] at hsum
              have hl0 : ((availVals d.av t' j).length : ℝ) ≠ 0 := by
                have := List.length_pos_iff.mpr hne'
                exact_mod_cast this.ne'
              rcases mul_eq_zero.mp hsum.symm with h | h
              · exact absurd h hl0
              · exact h
            obtain ⟨w0, hw0⟩ := List.exists_mem_of_ne_nil _ hne'
            have h00 := hall w0 hw0
            refine ⟨0, 0, ⟨h00 ▸ hw0, fun v hv => (hall v hv).le⟩, ⟨h00 ▸ hw0, fun v hv => (hall v hv).ge⟩, Or.inl rfl, Or.inl rfl⟩
          have h2 := hsd hdiff
          have hm0 : mean (availVals d.av t' j) = 0 := by unfold mean; rw [hz, zero_div]
          unfold std
          rw [hm0]
          simp only [sub_zero]
          rw [h2, div_self, Real.sqrt_one]
          have := List.length_pos_iff.mpr hne'
          exact_mod_cast this.ne'
      rw [hmean, hscale, sub_zero, div_one]

theorem transform_x (s : Scaler) (t : T) (i j : Nat) : (transform s t).x i j = cell s j (t.x i j) := rfl

/-! ## Violations -/

/-- **C83 fails for case-specific data**: with at least two alternatives, `standardize()` raises for every table of case-specific variables whose number
of columns is not the number of alternatives; the alternative-specific data was already standardized then. -/
theorem C83_fails_co (wm ws : Bool) (d : Data) (nCases nAlts : Nat) (t : T) (hco : d.co = some t) (hca : d.ca = none) (hr : t.nRows = nCases)
    (hav : d.av.length = nCases * nAlts) (h2 : 2 ≤ nAlts) (hn : 1 ≤ nCases) (hc : t.nCols ≠ nAlts) :
    (standardize wm ws d).2.1 = some "data_co" := by
  have hm : alignMask t.nRows t.nCols (d.av.map (fun a => !a)) = none := by
    unfold alignMask
    have h1 : nCases * 2 ≤ nCases * nAlts := Nat.mul_le_mul_left _ h2
    rw [List.length_map, hav, hr, if_neg (by omega), if_neg, if_neg (by omega)]
    intro h
    exact hc (Nat.eq_of_mul_eq_mul_left (by omega) h).symm
  unfold standardize
  simp only [hca, part, hco, fit, hm, Option.map_none]

/-- **C83 fails for idce data**: `standardize()` raises unless there is a row for every alternative of every case (or the number of cells happens to be
the number of cases times the number of alternatives). -/
theorem C83_fails_ce (wm ws : Bool) (d : Data) (nCases nAlts : Nat) (t : T) (hce : d.ce = some t) (hca : d.ca = none) (hco : d.co = none)
    (hav : d.av.length = nCases * nAlts) (h2 : 2 ≤ nCases * nAlts) (hr : t.nRows < nCases * nAlts) (hc : t.nRows * t.nCols ≠ nCases * nAlts) :
    (standardize wm ws d).2.1 = some "data_ce" := by
  have hm : alignMask t.nRows t.nCols (d.av.map (fun a => !a)) = none := by
    unfold alignMask
    rw [List.length_map, hav, if_neg (by omega), if_neg (fun h => hc h.symm), if_neg (by omega)]
  unfold standardize
  simp only [hca, part, hco, hce, fit, hm, Option.map_none]

/-- Two cases and two variables of the cases: 3, 7 and 10, 20. -/
noncomputable def stdTab : T := ⟨2, 2, fun i j => if j = 0 then (if i = 0 then 3 else 7) else (if i = 0 then 10 else 20)⟩

/-- Two cases, two alternatives; alternative 1 is not available in case 0. -/
noncomputable def stdCo : Data := ⟨[true, false, true, true], none, some stdTab, none⟩

/-- **C83 fails for case-specific data with as many variables as alternatives**: the availability of the second *alternative* hides values of the second
*variable*; here the value 10 of case 0 is not seen, the mean is taken to be 20. -/
theorem C83_fails_co_masked : ∃ sc t', standardize true true stdCo = ({ stdCo with co := some t' }, none, sc) ∧ t'.x 0 1 = -10 ∧ t'.x 1 1 = 0 := by
  set m : Nat → Nat → Bool := fun i j => ([false, true, false, false] : List Bool).getD (i * 2 + j) false with hmdef
  have hm : alignMask 2 2 (([true, false, true, true] : List Bool).map (fun a => !a)) = some m := rfl
  have hcv : colVals stdTab m 1 = [20] := by
    unfold colVals
    have : ((List.range stdTab.nRows).filter (fun i => !(m i 1))) = [1] := by
      rw [hmdef, show stdTab.nRows = 2 from rfl]; decide
    rw [this]
    simp [stdTab]
  have hns : ¬ NonScale [(20 : ℝ)] := by unfold NonScale maxL; simp
  have hmean : (fitCols true true stdTab m).mean 1 = 20 := by
    unfold fitCols
    dsimp only
    rw [hcv, if_neg (fun h => hns h.2)]
    simp [mean]
  have hscale : (fitCols true true stdTab m).scale 1 = 1 := by
    unfold fitCols
    dsimp only
    rw [hcv, if_neg (fun h => hns h.2), if_pos]
    simp [std, mean]
  refine ⟨⟨none, some (fitCols true true stdTab m), none⟩, transform (fitCols true true stdTab m) stdTab, ?_, ?_, ?_⟩
  · unfold standardize stdCo
    simp only [part, fit, show stdTab.nRows = 2 from rfl, show stdTab.nCols = 2 from rfl, hm, Option.map_some]
  · rw [transform_x]
    unfold cell
    rw [hmean, hscale]
    simp only [fitCols, stdTab]
    norm_num
  · rw [transform_x]
    unfold cell
    rw [hmean, hscale]
    simp only [fitCols, stdTab]
    norm_num

/-- Three available alternatives in one case, one variable with the values 10, 12, 14. -/
noncomputable def stdTrain : Data := ⟨[true, true, true], some ⟨3, 1, fun i _ => 10 + 2 * i⟩, none, none⟩

/-- `stdTrain` meets the hypotheses of the theorems: idca data only, a row for each availability, some available value, not a unit range. -/
example : stdTrain.ca = some ⟨3, 1, fun i _ => 10 + 2 * i⟩ ∧ stdTrain.co = none ∧ stdTrain.ce = none ∧ stdTrain.av.length = 3 ∧
    availVals stdTrain.av ⟨3, 1, fun i _ => 10 + 2 * i⟩ 0 ≠ [] := by
  refine ⟨rfl, rfl, rfl, rfl, ?_⟩
  rw [← List.length_pos_iff]
  unfold availVals
  rw [List.length_map]
  decide

/-- **C83 fails after standardizing twice**: the second call keeps the data but replaces the kept means and scales by 0 and 1, so that other data standardized
`same_as` is then not changed at all. -/
theorem C83_fails_twice : ∃ t' sc' , standardize true true (standardize true true stdTrain).1 = ({ stdTrain with ca := some t' }, none, sc') ∧
    t'.x 0 0 ≠ 10 ∧ ∀ u : T, u.nCols = 1 → ∀ u', standardizeAs sc' ⟨[], some u, none, none⟩ = (⟨[], some u', none, none⟩, none) →
      ∀ i, u'.x i 0 = u.x i 0 := by
  set t : T := ⟨3, 1, fun i _ => 10 + 2 * i⟩ with ht
  have hav : availVals [true, true, true] t 0 = [10, 12, 14] := by
    unfold availVals
    have : ((List.range t.nRows).filter (fun i => ([true, true, true] : List Bool).getD i false)) = [0, 1, 2] := by
      rw [show t.nRows = 3 from rfl]; decide
    rw [this]; simp [ht]; norm_num
  have hnu : ¬ UnitRange (availVals [true, true, true] t 0) := by
    rw [hav]
    rintro ⟨M, m, ⟨h1, -⟩, -, hM, -⟩
    simp only [List.mem_cons, List.not_mem_nil, or_false, Set.mem_setOf_eq] at h1
    rcases hM with rfl | rfl <;> norm_num at h1
  obtain ⟨t', sc, h1, hr, hcl, hspec⟩ := C83_standardized stdTrain t rfl rfl rfl rfl
  have hspec := (hspec 0 (by simp [ht]) (by rw [show stdTrain.av = [true, true, true] from rfl, hav]; simp)).2 hnu
  obtain ⟨hz, hsd⟩ := hspec
  have hsd := hsd ⟨10, by rw [show stdTrain.av = [true, true, true] from rfl, hav]; simp, 12, by
    rw [show stdTrain.av = [true, true, true] from rfl, hav]; simp, by norm_num⟩
  have hav' : availVals stdTrain.av t' 0 = [t'.x 0 0, t'.x 1 0, t'.x 2 0] := by
    unfold availVals
    have : ((List.range t'.nRows).filter (fun i => stdTrain.av.getD i false)) = [0, 1, 2] := by
      rw [hr, show stdTrain.av = [true, true, true] from rfl, show t.nRows = 3 from rfl]; decide
    rw [this]; rfl
  obtain ⟨m, hm, hmr⟩ := alignMask_rows t'.nRows t'.nCols (stdTrain.av.map (fun a => !a)) (by rw [hr]; rfl)
  have hcv : colVals t' m 0 = availVals stdTrain.av t' 0 := colVals_avail (by rw [hr]; rfl) hmr (by rw [hcl]; simp [ht])
  have hlen : ((availVals stdTrain.av t' 0).length : ℝ) = 3 := by rw [hav']; norm_num
  have hm0 : mean (availVals stdTrain.av t' 0) = 0 := by unfold mean; rw [hz, zero_div]
  have hs1 : std (availVals stdTrain.av t' 0) = 1 := by
    unfold std
    rw [hm0]
    simp only [sub_zero]
    rw [hsd, div_self, Real.sqrt_one]
    rw [hlen]; norm_num
  have hcell : ∀ v, cell (fitCols true true t' m) 0 v = v := by
    intro v
    have hmean : (fitCols true true t' m).mean 0 = 0 := by
      unfold fitCols
      dsimp only
      split
      · rfl
      · rw [hcv, hm0]
    have hscale : (fitCols true true t' m).scale 0 = 1 := by
      unfold fitCols
      dsimp only
      split
      · rfl
      · rw [hcv, hs1, if_neg one_ne_zero]
    unfold cell
    rw [hmean, hscale]
    simp [fitCols]
  refine ⟨transform (fitCols true true t' m) t', ⟨some (fitCols true true t' m), none, none⟩, ?_, ?_, ?_⟩
  · rw [h1]
    unfold standardize
    simp only [part, fit, hm, Option.map_some, stdTrain] at hm ⊢
  · rw [transform_x, hcell]
    intro h
    rw [hav'] at hsd
    simp only [List.map_cons, List.map_nil, List.sum_cons, List.sum_nil, List.length_cons, List.length_nil, h] at hsd
    norm_num at hsd
    nlinarith [sq_nonneg (t'.x 1 0), sq_nonneg (t'.x 2 0)]
  · intro u hu u' h i
    unfold standardizeAs at h
    simp only [usePart, Prod.mk.injEq, Data.mk.injEq, Option.some.injEq, and_true, true_and] at h
    rw [← h, transform_x, hcell]

end Larch.Props
