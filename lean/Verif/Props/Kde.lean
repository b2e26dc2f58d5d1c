import Verif.Model.Kde
import Mathlib.MeasureTheory.Integral.IntervalIntegral.Basic
import Mathlib.MeasureTheory.Measure.Haar.NormedSpace
import Mathlib.MeasureTheory.Group.Integral
import Mathlib.MeasureTheory.Measure.Haar.Unique
import Mathlib.Probability.Distributions.Gaussian.Real
import Mathlib.Tactic

/-!
# C176: bounded kernel densities
-/

namespace Larch.Props

open Larch.Kde MeasureTheory

/-- A kernel: not negative, of area one. -/
structure IsKernel (k : ℝ → ℝ) : Prop where
  nonneg : ∀ x, 0 ≤ k x
  integrable : Integrable k
  area : ∫ x, k x = 1

theorem kd_weight_pos (d : List (ℝ × ℝ)) (h : ∃ p ∈ d, 0 < p.2) : 0 < weight (used d) := by
  have h1 : ∀ l : List (ℝ × ℝ), (∀ p ∈ l, 0 < p.2) → 0 ≤ weight l := by
    intro l hl
    exact List.sum_nonneg (by intro x hx; obtain ⟨p, hp, rfl⟩ := List.mem_map.mp hx; exact (hl p hp).le)
  obtain ⟨p, hp, hpos⟩ := h
  have hm : p ∈ used d := List.mem_filter.mpr ⟨hp, by simpa using hpos⟩
  have hall : ∀ q ∈ used d, 0 < q.2 := fun q hq => by simpa using (List.mem_filter.mp hq).2
  generalize used d = l at hm hall
  obtain ⟨a, b, rfl⟩ := List.append_of_mem hm
  have ha := h1 a (fun q hq => hall q (by simp [hq]))
  have hb := h1 b (fun q hq => hall q (by simp [hq]))
  simp only [weight, List.map_append, List.map_cons, List.sum_append, List.sum_cons] at ha hb ⊢
  linarith

theorem kd_kernel_at (k : ℝ → ℝ) (hk : IsKernel k) (h : ℝ) (hh : 0 < h) (v w : ℝ) :
    Integrable (fun x => w * (k ((x - v) / h) / h)) ∧ ∫ x, w * (k ((x - v) / h) / h) = w := by
  have hi : Integrable (fun x => k ((x - v) / h)) := (hk.integrable.comp_div hh.ne').comp_sub_right v
  refine ⟨(hi.div_const h).const_mul w, ?_⟩
  rw [integral_const_mul, integral_div]
  have h1 : ∫ x, k ((x - v) / h) = ∫ x, k (x / h) := integral_sub_right_eq_self (fun x => k (x / h)) v
  rw [h1, Measure.integral_comp_div, hk.area, abs_of_pos hh]
  simp only [smul_eq_mul, mul_one]
  rw [div_self hh.ne', mul_one]

theorem kd_sum (k : ℝ → ℝ) (hk : IsKernel k) (h : ℝ) (hh : 0 < h) (d : List (ℝ × ℝ)) :
    Integrable (fun x => (d.map (fun p => p.2 * (k ((x - p.1) / h) / h))).sum) ∧
      ∫ x, (d.map (fun p => p.2 * (k ((x - p.1) / h) / h))).sum = weight d := by
  induction d with
  | nil => simp [weight]
  | cons p t ih =>
    obtain ⟨h1, h2⟩ := kd_kernel_at k hk h hh p.1 p.2
    simp only [List.map_cons, List.sum_cons]
    refine ⟨h1.add ih.1, ?_⟩
    rw [integral_add h1 ih.1, h2, ih.2]
    simp [weight]

/-- **C176**: a kernel estimate is a density: not negative, of area one. -/
theorem C176_density (k : ℝ → ℝ) (hk : IsKernel k) (h : ℝ) (hh : 0 < h) (d : List (ℝ × ℝ)) (hd : ∃ p ∈ d, 0 < p.2) :
    IsKernel (density k h (used d)) := by
  have hw := kd_weight_pos d hd
  obtain ⟨h1, h2⟩ := kd_sum k hk h hh (used d)
  refine ⟨?_, h1.div_const _, ?_⟩
  · intro x
    apply div_nonneg _ hw.le
    apply List.sum_nonneg
    intro y hy
    obtain ⟨p, hp, rfl⟩ := List.mem_map.mp hy
    have hp2 : 0 < p.2 := by simpa using (List.mem_filter.mp hp).2
    exact mul_nonneg hp2.le (div_nonneg (hk.nonneg _) hh.le)
  · unfold density
    rw [integral_div, h2, div_self hw.ne']

theorem kd_call_both (g : ℝ → ℝ) (l u : ℝ) :
    call g (some l) (some u) = (Set.Icc l u).indicator (fun x => g x + g (2 * l - x) + g (2 * u - x)) := by
  funext x
  unfold call
  by_cases hx : l ≤ x ∧ x ≤ u
  · rw [if_neg, Set.indicator_of_mem (show x ∈ Set.Icc l u from hx)]
    · rfl
    · rintro (⟨a, ha, hlt⟩ | ⟨a, ha, hlt⟩)
      · simp only [Option.some.injEq] at ha; subst ha; linarith [hx.1]
      · simp only [Option.some.injEq] at ha; subst ha; linarith [hx.2]
  · rw [if_pos, Set.indicator_of_notMem (show x ∉ Set.Icc l u from hx)]
    by_cases h1 : l ≤ x
    · exact Or.inr ⟨u, rfl, by by_contra hc; exact hx ⟨h1, not_lt.mp hc⟩⟩
    · exact Or.inl ⟨l, rfl, not_le.mp h1⟩

/-- **C176**: with two bounds the density is nowhere negative and is zero outside of them, and its area is that of the unbounded density between
the mirror images of each bound in the other: at most one. -/
theorem C176_two_bounds (g : ℝ → ℝ) (hg : IsKernel g) (l u : ℝ) (hlu : l ≤ u) :
    (∀ x, 0 ≤ call g (some l) (some u) x) ∧ (∀ x, x < l ∨ u < x → call g (some l) (some u) x = 0) ∧
      ∫ x, call g (some l) (some u) x = ∫ x in (2 * l - u)..(2 * u - l), g x ∧ ∫ x, call g (some l) (some u) x ≤ 1 := by
  have hc := kd_call_both g l u
  have hii : ∀ a b, IntervalIntegrable g volume a b := fun a b => hg.integrable.intervalIntegrable
  have hir : ∀ c a b : ℝ, IntervalIntegrable (fun x => g (c - x)) volume a b := fun c a b => (hg.integrable.comp_sub_left c).intervalIntegrable
  have hint : ∫ x, call g (some l) (some u) x = ∫ x in (2 * l - u)..(2 * u - l), g x := by
    rw [hc, integral_indicator measurableSet_Icc, integral_Icc_eq_integral_Ioc, ← intervalIntegral.integral_of_le hlu]
    rw [intervalIntegral.integral_add ((hii l u).add (hir (2 * l) l u)) (hir (2 * u) l u),
      intervalIntegral.integral_add (hii l u) (hir (2 * l) l u),
      intervalIntegral.integral_comp_sub_left, intervalIntegral.integral_comp_sub_left]
    have e1 : 2 * l - l = l := by ring
    have e2 : 2 * u - u = u := by ring
    rw [e1, e2]
    rw [← intervalIntegral.integral_add_adjacent_intervals (hii (2 * l - u) l) (hii l (2 * u - l)),
      ← intervalIntegral.integral_add_adjacent_intervals (hii l u) (hii u (2 * u - l))]
    ring
  refine ⟨?_, ?_, hint, ?_⟩
  · intro x
    rw [hc]
    apply Set.indicator_nonneg
    intro y _
    have := hg.nonneg y
    have := hg.nonneg (2 * l - y)
    have := hg.nonneg (2 * u - y)
    linarith
  · intro x hx
    rw [hc]
    apply Set.indicator_of_notMem
    rintro ⟨h1, h2⟩
    rcases hx with hx | hx <;> linarith
  · rw [hint, intervalIntegral.integral_of_le (by linarith)]
    refine le_trans (setIntegral_le_integral hg.integrable (Filter.Eventually.of_forall hg.nonneg)) (le_of_eq hg.area)

/-- **C176**: nothing is lost when no kernel reaches further than the mirror images: the area is then one. -/
theorem C176_area_one (g : ℝ → ℝ) (hg : IsKernel g) (l u : ℝ) (hlu : l ≤ u) (hs : ∀ x, x < 2 * l - u ∨ 2 * u - l < x → g x = 0) :
    ∫ x, call g (some l) (some u) x = 1 := by
  rw [(C176_two_bounds g hg l u hlu).2.2.1, intervalIntegral.integral_of_le (by linarith), ← integral_Icc_eq_integral_Ioc, ← hg.area,
    ← integral_indicator measurableSet_Icc]
  congr 1
  funext x
  by_cases hx : x ∈ Set.Icc (2 * l - u) (2 * u - l)
  · rw [Set.indicator_of_mem hx]
  · rw [Set.indicator_of_notMem hx]
    symm
    apply hs
    by_cases h1 : 2 * l - u ≤ x
    · right; by_contra hc; exact hx ⟨h1, not_lt.mp hc⟩
    · left; exact not_le.mp h1

theorem kd_mirror_half (g : ℝ → ℝ) (l : ℝ) : ∫ x, (Set.Ici l).indicator (fun x => g (2 * l - x)) x = ∫ x, (Set.Iic l).indicator g x := by
  rw [← integral_sub_left_eq_self ((Set.Iic l).indicator g) volume (2 * l)]
  congr 1
  funext x
  by_cases hx : l ≤ x
  · rw [Set.indicator_of_mem (show x ∈ Set.Ici l from hx), Set.indicator_of_mem (show 2 * l - x ∈ Set.Iic l by simp only [Set.mem_Iic]; linarith)]
  · rw [Set.indicator_of_notMem (show x ∉ Set.Ici l from hx), Set.indicator_of_notMem (show 2 * l - x ∉ Set.Iic l by
      simp only [Set.mem_Iic, not_le] at hx ⊢; linarith)]

theorem kd_halves (g : ℝ → ℝ) (hg : Integrable g) (l : ℝ) : (∫ x, (Set.Ici l).indicator g x) + (∫ x, (Set.Iic l).indicator g x) = ∫ x, g x := by
  rw [integral_indicator measurableSet_Ici, integral_indicator measurableSet_Iic, integral_Ici_eq_integral_Ioi]
  have := integral_add_compl (μ := volume) (f := g) (measurableSet_Ioi (a := l)) hg
  rw [Set.compl_Ioi] at this
  exact this

/-- **C176**: with one bound, or none, the area is one. -/
theorem C176_one_bound (g : ℝ → ℝ) (hg : IsKernel g) (l : ℝ) :
    ∫ x, call g (some l) none x = 1 ∧ ∫ x, call g none (some l) x = 1 ∧ (∀ x, call g none none x = g x) := by
  refine ⟨?_, ?_, ?_⟩
  · have hc : call g (some l) none = fun x => (Set.Ici l).indicator g x + (Set.Ici l).indicator (fun x => g (2 * l - x)) x := by
      funext x
      unfold call
      by_cases hx : l ≤ x
      · rw [if_neg, Set.indicator_of_mem (show x ∈ Set.Ici l from hx), Set.indicator_of_mem (show x ∈ Set.Ici l from hx)]
        · simp [evaluate, mirror]
        · rintro (⟨a, ha, hlt⟩ | ⟨a, ha, hlt⟩)
          · simp only [Option.some.injEq] at ha; subst ha; linarith
          · simp at ha
      · rw [if_pos (show outside (some l) none x from Or.inl ⟨l, rfl, not_le.mp hx⟩), Set.indicator_of_notMem (show x ∉ Set.Ici l from hx),
          Set.indicator_of_notMem (show x ∉ Set.Ici l from hx)]
        simp
    rw [hc, integral_add (hg.integrable.indicator measurableSet_Ici) ((hg.integrable.comp_sub_left _).indicator measurableSet_Ici),
      kd_mirror_half, kd_halves g hg.integrable, hg.area]
  · have hc : call g none (some l) = fun x => (Set.Iic l).indicator g x + (Set.Iic l).indicator (fun x => g (2 * l - x)) x := by
      funext x
      unfold call
      by_cases hx : x ≤ l
      · rw [if_neg, Set.indicator_of_mem (show x ∈ Set.Iic l from hx), Set.indicator_of_mem (show x ∈ Set.Iic l from hx)]
        · simp [evaluate, mirror]
        · rintro (⟨a, ha, hlt⟩ | ⟨a, ha, hlt⟩)
          · simp at ha
          · simp only [Option.some.injEq] at ha; subst ha; linarith
      · rw [if_pos (show outside none (some l) x from Or.inr ⟨l, rfl, not_le.mp hx⟩), Set.indicator_of_notMem (show x ∉ Set.Iic l from hx),
          Set.indicator_of_notMem (show x ∉ Set.Iic l from hx)]
        simp
    have hm : ∫ x, (Set.Iic l).indicator (fun x => g (2 * l - x)) x = ∫ x, (Set.Ici l).indicator g x := by
      rw [← integral_sub_left_eq_self ((Set.Ici l).indicator g) volume (2 * l)]
      congr 1
      funext x
      by_cases hx : x ≤ l
      · rw [Set.indicator_of_mem (show x ∈ Set.Iic l from hx), Set.indicator_of_mem (show 2 * l - x ∈ Set.Ici l by simp only [Set.mem_Ici]; linarith)]
      · rw [Set.indicator_of_notMem (show x ∉ Set.Iic l from hx), Set.indicator_of_notMem (show 2 * l - x ∉ Set.Ici l by
          simp only [Set.mem_Ici, not_le] at hx ⊢; linarith)]
    rw [hc, integral_add (hg.integrable.indicator measurableSet_Iic) ((hg.integrable.comp_sub_left _).indicator measurableSet_Iic), hm,
      add_comm, kd_halves g hg.integrable, hg.area]
  · intro x
    unfold call
    rw [if_neg]
    · simp [evaluate, mirror]
    · rintro (⟨a, ha, _⟩ | ⟨a, ha, _⟩) <;> simp at ha

theorem kd_min (l : List ℝ) (h : l ≠ []) : ∃ m, l.min? = some m ∧ m ∈ l ∧ ∀ x ∈ l, m ≤ x := by
  cases hm : l.min? with
  | none => exact absurd (List.min?_eq_none_iff.mp hm) h
  | some m => exact ⟨m, rfl, (List.min?_eq_some_iff.mp hm).1, (List.min?_eq_some_iff.mp hm).2⟩

theorem kd_max (l : List ℝ) (h : l ≠ []) : ∃ m, l.max? = some m ∧ m ∈ l ∧ ∀ x ∈ l, x ≤ m := by
  cases hm : l.max? with
  | none => exact absurd (List.max?_eq_none_iff.mp hm) h
  | some m => exact ⟨m, rfl, (List.max?_eq_some_iff.mp hm).1, (List.max?_eq_some_iff.mp hm).2⟩

/-- **C176**: by default the bounds are the least and the greatest value, and with a kernel that reaches no further than its bandwidth, no more than the
distance of these, the area is one. -/
theorem C176_default (k : ℝ → ℝ) (hk : IsKernel k) (h : ℝ) (hh : 0 < h) (d : List (ℝ × ℝ)) (hd : ∃ p ∈ d, 0 < p.2)
    (hs : ∀ x, 1 < |x| → k x = 0) :
    ∃ l u, l ∈ d.map Prod.fst ∧ u ∈ d.map Prod.fst ∧ (∀ v ∈ d.map Prod.fst, l ≤ v ∧ v ≤ u) ∧
      (∀ x, x < l ∨ u < x → bounded k h d .auto .auto x = 0) ∧ (h ≤ u - l → ∫ x, bounded k h d .auto .auto x = 1) := by
  have hne : d.map Prod.fst ≠ [] := by
    obtain ⟨p, hp, _⟩ := hd
    exact List.ne_nil_of_mem (List.mem_map.mpr ⟨p, hp, rfl⟩)
  obtain ⟨l, hl, hlm, hll⟩ := kd_min _ hne
  obtain ⟨u, hu, hum, huu⟩ := kd_max _ hne
  have hlu : l ≤ u := hll u hum
  have hg := C176_density k hk h hh d hd
  have hb : bounded k h d .auto .auto = call (density k h (used d)) (some l) (some u) := by
    funext x
    simp only [bounded, lower, upper, hl, hu]
  rw [hb]
  refine ⟨l, u, hlm, hum, fun v hv => ⟨hll v hv, huu v hv⟩, (C176_two_bounds _ hg l u hlu).2.1, ?_⟩
  intro hhu
  apply C176_area_one _ hg l u hlu
  intro x hx
  unfold density
  have : (used d).map (fun p => p.2 * (k ((x - p.1) / h) / h)) = (used d).map (fun _ => (0 : ℝ)) := by
    apply List.map_congr_left
    intro p hp
    have hpd : p.1 ∈ d.map Prod.fst := List.mem_map.mpr ⟨p, (List.mem_filter.mp hp).1, rfl⟩
    have h1 := hll _ hpd
    have h2 := huu _ hpd
    have : k ((x - p.1) / h) = 0 := by
      apply hs
      rw [abs_div, abs_of_pos hh, lt_div_iff₀ hh, one_mul]
      rcases hx with hx | hx
      · rw [abs_of_neg (by linarith)]; linarith
      · rw [abs_of_pos (by linarith)]; linarith
    rw [this]; simp
  rw [this]
  simp

/-- **C176**: with unit weights the variance behind the bandwidth is the sample variance. -/
theorem C176_variance (xs : List ℝ) (h : 2 ≤ xs.length) :
    sampleVariance (xs.map (fun x => (x, 1))) =
      some ((xs.map (fun x => (x - xs.sum / xs.length) ^ 2)).sum / ((xs.length : ℝ) - 1)) := by
  have hw : ∀ (ys : List ℝ), weight (ys.map (fun x => (x, (1 : ℝ)))) = ys.length := by
    intro ys
    simp [weight, List.map_map, Function.comp_def]
  have ha : ∀ (ys : List ℝ), Kde.average (ys.map (fun x => (x, (1 : ℝ)))) = ys.sum / ys.length := by
    intro ys
    unfold Kde.average
    rw [hw]
    simp [List.map_map, Function.comp_def]
  have hl : (2 : ℝ) ≤ xs.length := by exact_mod_cast h
  unfold sampleVariance
  rw [hw, if_neg (by rintro (h | h) <;> linarith)]
  have hm : (xs.map (fun x => (x, (1 : ℝ)))).map (fun p => ((p.1 - Kde.average (xs.map (fun x => (x, (1 : ℝ))))) ^ 2, p.2)) =
      (xs.map (fun x => (x - xs.sum / xs.length) ^ 2)).map (fun x => (x, (1 : ℝ))) := by
    rw [List.map_map, List.map_map, ha]
    rfl
  rw [hm, ha]
  congr 1
  have h0 : (xs.length : ℝ) ≠ 0 := by linarith
  rw [List.length_map, div_mul_cancel₀ _ h0]

/-- **C176, where the code falls short**: values that are not used, of weight zero, set the bounds. -/
theorem C176_fails_bounds : ∃ d : List (ℝ × ℝ), (∀ p ∈ used d, p.1 ≤ 2) ∧ upper .auto d = some 100 := by
  refine ⟨[(1, 1), (2, 1), (100, 0)], ?_, ?_⟩
  · intro p hp
    have := List.mem_filter.mp hp
    simp only [List.mem_cons, List.not_mem_nil, or_false, decide_eq_true_eq] at this
    rcases this with ⟨h | h | h, h2⟩ <;> subst h
    · norm_num
    · norm_num
    · norm_num at h2
  · simp only [upper, List.map_cons, List.map_nil]
    norm_num [List.max?_cons']

/-- **C176, where the code falls short**: weights that add up to one, or less, leave no bandwidth, whatever the data. -/
theorem C176_fails_weights (d : List (ℝ × ℝ)) (h : weight d ≤ 1) : sampleVariance d = none := if_pos (Or.inr h)

/-- **C176, where the code falls short**: with a kernel that is nowhere zero, like the default one, the area between two bounds is less than one. -/
theorem C176_fails_area (g : ℝ → ℝ) (hg : IsKernel g) (l u : ℝ) (hlu : l ≤ u) (hpos : ∀ x, 0 < g x) :
    ∫ x, call g (some l) (some u) x < 1 := by
  rw [(C176_two_bounds g hg l u hlu).2.2.1, intervalIntegral.integral_of_le (by linarith)]
  have h1 := integral_add_compl (μ := volume) (f := g) (measurableSet_Ioc (a := 2 * l - u) (b := 2 * u - l)) hg.integrable
  rw [hg.area] at h1
  have h2 : 0 < ∫ x in (Set.Ioc (2 * l - u) (2 * u - l))ᶜ, g x := by
    rw [setIntegral_pos_iff_support_of_nonneg_ae (Filter.Eventually.of_forall hg.nonneg) hg.integrable.integrableOn]
    have hs : Function.support g = Set.univ := by
      ext x; simp [(hpos x).ne']
    rw [hs, Set.univ_inter]
    have hsub : Set.Ioi (2 * u - l) ⊆ (Set.Ioc (2 * l - u) (2 * u - l))ᶜ := by
      intro x hx hc
      exact absurd hc.2 (not_le.mpr hx)
    refine lt_of_lt_of_le ?_ (measure_mono hsub)
    rw [Real.volume_Ioi]
    exact ENNReal.zero_lt_top
  linarith

/-! ## Kernels there are -/

/-- The kernel `'tophat'`. -/
noncomputable def tophat : ℝ → ℝ := (Set.Icc (-1) 1).indicator (fun _ => 1 / 2)

theorem kd_tophat : IsKernel tophat := by
  refine ⟨?_, ?_, ?_⟩
  · intro x
    exact Set.indicator_nonneg (fun _ _ => by norm_num) x
  · exact (integrable_indicator_iff measurableSet_Icc).mpr (integrableOn_const (by simp))
  · unfold tophat
    rw [integral_indicator measurableSet_Icc]
    simp
    norm_num

/-- The kernel `'gaussian'`, the default, is a kernel that is nowhere zero. -/
theorem kd_gaussian : IsKernel (ProbabilityTheory.gaussianPDFReal 0 1) ∧ ∀ x, 0 < ProbabilityTheory.gaussianPDFReal 0 1 x :=
  ⟨⟨fun x => ProbabilityTheory.gaussianPDFReal_nonneg 0 1 x, ProbabilityTheory.integrable_gaussianPDFReal 0 1,
    ProbabilityTheory.integral_gaussianPDFReal_eq_one 0 one_ne_zero⟩, fun x => ProbabilityTheory.gaussianPDFReal_pos 0 1 x one_ne_zero⟩

example : (∀ x, 1 < |x| → tophat x = 0) ∧ (∃ p ∈ [((0 : ℝ), (1 : ℝ)), (3, 2)], 0 < p.2) := by
  refine ⟨?_, (0, 1), by simp, by norm_num⟩
  intro x hx
  apply Set.indicator_of_notMem
  intro h
  exact absurd (abs_le.mpr h) (not_le.mpr hx)

end Larch.Props
