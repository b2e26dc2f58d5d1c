import Verif.Lemmas.Weights
import Verif.Props.CompiledNl

/-!
# C77: rescaling weights changes no result
-/

namespace Larch.Props

open Larch.Weights Larch.Spec

section
variable {K : Type} [Field K] [LinearOrder K] [IsStrictOrderedRing K]

theorem total_zero {w : W K} (h : NonnegChoices w) {i j : Nat} (hi : i < w.nCases) (hj : j < w.nAlts)
    (h0 : choiceTotal w i = 0) : w.ch i j = 0 := by
  have := (Finset.sum_eq_zero_iff_of_nonneg (fun j hj => h i hi j (Finset.mem_range.mp hj))).mp h0
  exact this j (Finset.mem_range.mpr hj)

/-- What the extraction keeps. -/
theorem extract_keeps (w : W K) (h : NonnegChoices w) :
    (extract w).nCases = w.nCases ∧ (extract w).nAlts = w.nAlts ∧ (extract w).norm = w.norm ∧ NonnegChoices (extract w) ∧
    ∀ i < w.nCases, ∀ j < w.nAlts, (extract w).ch i j * caseWt (extract w) i = w.ch i j * caseWt w i := by
  rcases extract_spec w with ⟨he, _⟩ | ⟨i0, _, _, hE⟩
  · rw [he]; exact ⟨rfl, rfl, rfl, h, fun _ _ _ _ => rfl⟩
  · have ht : ∀ i, choiceTotal (ensureWt w) i = choiceTotal w i := by
      intro i; unfold choiceTotal; rw [ensureWt_nAlts, ensureWt_ch]
    have hch := hE.ch
    have hwt := hE.wt
    have hsame := hE.same
    simp only [ht, ensureWt_ch, ensureWt_caseWt] at hch hwt hsame
    refine ⟨hE.nCases.trans (ensureWt_nCases w), hE.nAlts.trans (ensureWt_nAlts w), hE.norm.trans (ensureWt_norm w), ?_, ?_⟩
    · intro i hi j hj
      rw [hE.nCases, ensureWt_nCases] at hi
      rw [hE.nAlts, ensureWt_nAlts] at hj
      by_cases hp : i0 ≤ i ∧ i < w.nCases
      · rw [hch i hp j]
        split_ifs
        · exact div_nonneg (h i hi j hj) (Finset.sum_nonneg (fun j hj => h i hi j (Finset.mem_range.mp hj)))
        · exact h i hi j hj
      · rw [(hsame i hp).1 j]; exact h i hi j hj
    · intro i hi j hj
      by_cases hp : i0 ≤ i ∧ i < w.nCases
      · rw [hch i hp j, hwt i hp (ensureWt_some w)]
        by_cases h0 : choiceTotal w i = 0
        · rw [total_zero h hi hj h0]; simp
        · rw [if_pos h0]; field_simp
      · rw [(hsame i hp).1 j, (hsame i hp).2]

/-- What any call keeps. -/
theorem call_keeps (w : W K) (h : NonnegChoices w) (c : Call K) :
    (call w c).nCases = w.nCases ∧ (call w c).nAlts = w.nAlts ∧ NonnegChoices (call w c) ∧
    ∀ i < w.nCases, ∀ j < w.nAlts, contribution (call w c) i j = contribution w i j := by
  have hres : ∀ (v : W K) (wt : Nat → K) (level : K), v.wt = some wt →
      (rescale v wt level).1.nCases = v.nCases ∧ (rescale v wt level).1.nAlts = v.nAlts ∧ (rescale v wt level).1.ch = v.ch ∧
      ∀ i < v.nCases, caseWt (rescale v wt level).1 i * (rescale v wt level).1.norm = caseWt v i * v.norm := by
    intro v wt level hv
    unfold rescale
    split_ifs with hl
    · exact ⟨rfl, rfl, rfl, fun _ _ => rfl⟩
    · refine ⟨rfl, rfl, rfl, fun i hi => ?_⟩
      have hl0 : level ≠ 0 := fun e => hl ⟨e, by omega⟩
      simp only [caseWt, hv]
      field_simp
  obtain ⟨e1, e2, e3, e4, e5⟩ := extract_keeps w h
  have hE : ∀ v : W K, v.nCases = (extract w).nCases → v.nAlts = (extract w).nAlts → v.ch = (extract w).ch →
      (∀ i < (extract w).nCases, caseWt v i * v.norm = caseWt (extract w) i * (extract w).norm) →
      v.nCases = w.nCases ∧ v.nAlts = w.nAlts ∧ NonnegChoices v ∧
      ∀ i < w.nCases, ∀ j < w.nAlts, contribution v i j = contribution w i j := by
    intro v h1 h2 h3 h4
    refine ⟨h1.trans e1, h2.trans e2, ?_, ?_⟩
    · intro i hi j hj; rw [h3]; exact e4 i (h1 ▸ hi) j (h2 ▸ hj)
    · intro i hi j hj
      unfold contribution
      rw [mul_assoc, h4 i (e1.symm ▸ hi), h3, e3, ← mul_assoc, e5 i hi j hj]
  cases c with
  | scale s =>
    show (scaleWeights w s).1.nCases = _ ∧ (scaleWeights w s).1.nAlts = _ ∧ NonnegChoices (scaleWeights w s).1 ∧
      ∀ i < w.nCases, ∀ j < w.nAlts, contribution (scaleWeights w s).1 i j = _
    cases hw : (extract w).wt with
    | none =>
      rw [scaleWeights_none s hw]
      split_ifs <;> exact hE _ rfl rfl rfl (fun _ _ => rfl)
    | some wt =>
      rw [scaleWeights_some s hw]
      obtain ⟨a, b, c, d⟩ := hres (extract w) wt s hw
      exact hE _ a b c d
  | autoscale =>
    show (autoscaleWeights w).1.nCases = _ ∧ (autoscaleWeights w).1.nAlts = _ ∧ NonnegChoices (autoscaleWeights w).1 ∧
      ∀ i < w.nCases, ∀ j < w.nAlts, contribution (autoscaleWeights w).1 i j = _
    cases hw : (extract w).wt with
    | none => rw [autoscaleWeights_none hw]; exact hE _ rfl rfl rfl (fun _ _ => rfl)
    | some wt =>
      rw [autoscaleWeights_some hw]
      split_ifs
      · exact hE _ rfl rfl rfl (fun _ _ => rfl)
      · obtain ⟨a, b, c, d⟩ := hres (extract w) wt (wtSum (extract w) wt / (extract w).nCases) hw
        exact hE _ a b c d
  | unscale =>
    show (unscaleWeights w).1.nCases = _ ∧ (unscaleWeights w).1.nAlts = _ ∧ NonnegChoices (unscaleWeights w).1 ∧
      ∀ i < w.nCases, ∀ j < w.nAlts, contribution (unscaleWeights w).1 i j = _
    unfold unscaleWeights
    cases hw : w.wt with
    | none => exact ⟨rfl, rfl, h, fun _ _ _ _ => rfl⟩
    | some wt =>
      dsimp only
      split_ifs with hn
      · exact ⟨rfl, rfl, h, fun i _ j _ => by simp [contribution, hn]⟩
      · refine ⟨rfl, rfl, h, fun i _ j _ => ?_⟩
        simp only [contribution, caseWt, hw]
        field_simp

/-- **C77 (contributions).** Whatever sequence of calls of `scale_weights`, `autoscale_weights` and `unscale_weights` is made, whether or
not some of them raise, the choice of every alternative in every case goes on counting with the same weight. -/
theorem C77_contributions (w : W K) (h : NonnegChoices w) (calls : List (Call K)) :
    (calls.foldl call w).nCases = w.nCases ∧ (calls.foldl call w).nAlts = w.nAlts ∧
    ∀ i < w.nCases, ∀ j < w.nAlts, contribution (calls.foldl call w) i j = contribution w i j := by
  induction calls generalizing w with
  | nil => exact ⟨rfl, rfl, fun _ _ _ _ => rfl⟩
  | cons c cs ih =>
    obtain ⟨a, b, c', d⟩ := call_keeps w h c
    obtain ⟨a', b', d'⟩ := ih (call w c) c'
    rw [List.foldl_cons]
    refine ⟨a'.trans a, b'.trans b, fun i hi j hj => ?_⟩
    rw [d' i (a ▸ hi) j (b ▸ hj), d i hi j hj]

/-- **C77 (average weight).** After `autoscale_weights` returns, the average weight is one, if there are weights; and there are none only
if there were none and the choices of every case add up to one (up to 1e-8). -/
theorem C77_average (w : W K) {w' : W K} {s : K} (h : autoscaleWeights w = (w', .ok s)) (hn : 0 < w.nCases) :
    (∑ i ∈ Finset.range w'.nCases, caseWt w' i) / w'.nCases = 1 ∧
    (w'.wt = none → w.wt = none ∧ ∀ i < w.nCases, |choiceTotal w i - 1| ≤ 1 / 100000000) := by
  have hnc : (extract w).nCases = w.nCases := by
    rcases extract_spec w with ⟨he, _⟩ | ⟨i0, _, _, hE⟩
    · rw [he]
    · exact hE.nCases.trans (ensureWt_nCases w)
  have hn0 : ((extract w).nCases : K) ≠ 0 := by rw [hnc]; exact_mod_cast hn.ne'
  cases hw : (extract w).wt with
  | none =>
    rw [autoscaleWeights_none hw] at h
    simp only [Prod.mk.injEq] at h
    obtain ⟨h1, _⟩ := h
    subst h1
    refine ⟨?_, fun _ => ?_⟩
    · simp only [caseWt, hw, Finset.sum_const, Finset.card_range, nsmul_eq_mul, mul_one]
      exact div_self hn0
    · rcases extract_spec w with ⟨he, ht⟩ | ⟨i0, _, _, hE⟩
      · rw [he] at hw
        refine ⟨hw, fun i hi => ?_⟩
        have := ht i hi
        simp only [offTotal, Bool.or_eq_false_iff, decide_eq_false_iff_not, not_lt, gt_iff_lt] at this
        rw [abs_le]
        constructor
        · have := this.1; norm_num at this ⊢; linarith
        · have := this.2; norm_num at this ⊢; linarith
      · obtain ⟨wt, hwt⟩ := hE.isSome.mpr (ensureWt_some w)
        rw [hwt] at hw; exact absurd hw (by simp)
  | some wt =>
    rw [autoscaleWeights_some hw] at h
    rw [if_neg (by rw [hnc]; omega)] at h
    unfold rescale at h
    split_ifs at h with hl
    · simp at h
    · simp only [Prod.mk.injEq] at h
      obtain ⟨h1, _⟩ := h
      subst h1
      have hl0 : wtSum (extract w) wt / (extract w).nCases ≠ 0 := fun e => hl ⟨e, by rw [hnc]; omega⟩
      refine ⟨?_, fun h => by simp at h⟩
      simp only [caseWt]
      rw [← Finset.sum_div]
      have hs : wtSum (extract w) wt ≠ 0 := fun e => hl0 (by rw [e, zero_div])
      change wtSum (extract w) wt / (wtSum (extract w) wt / _) / _ = _
      field_simp

/-- **C77 (choices).** After `scale_weights` or `autoscale_weights` the choices of a case add up to zero or to one (in a leading block of
cases: to one up to 1e-8). -/
theorem C77_choice_totals (w : W K) (c : Call K) (hc : c ≠ .unscale) (i : Nat) (hi : i < w.nCases) :
    choiceTotal (call w c) i = 0 ∨ |choiceTotal (call w c) i - 1| ≤ 1 / 100000000 := by
  have hcall : (call w c).ch = (extract w).ch ∧ (call w c).nAlts = (extract w).nAlts := by
    cases c with
    | unscale => exact absurd rfl hc
    | scale s =>
      show (scaleWeights w s).1.ch = _ ∧ (scaleWeights w s).1.nAlts = _
      cases hw : (extract w).wt with
      | none => rw [scaleWeights_none s hw]; split_ifs <;> exact ⟨rfl, rfl⟩
      | some wt => rw [scaleWeights_some s hw]; unfold rescale; split_ifs <;> exact ⟨rfl, rfl⟩
    | autoscale =>
      show (autoscaleWeights w).1.ch = _ ∧ (autoscaleWeights w).1.nAlts = _
      cases hw : (extract w).wt with
      | none => rw [autoscaleWeights_none hw]; exact ⟨rfl, rfl⟩
      | some wt => rw [autoscaleWeights_some hw]; unfold rescale; split_ifs <;> exact ⟨rfl, rfl⟩
  have he : choiceTotal (call w c) i = choiceTotal (extract w) i := by
    unfold choiceTotal; rw [hcall.1, hcall.2]
  rw [he]
  have hnear : ∀ t : K, offTotal t = false → |t - 1| ≤ 1 / 100000000 := by
    intro t ht
    simp only [offTotal, Bool.or_eq_false_iff, decide_eq_false_iff_not, not_lt, gt_iff_lt] at ht
    rw [abs_le]
    constructor
    · have := ht.1; norm_num at this ⊢; linarith
    · have := ht.2; norm_num at this ⊢; linarith
  rcases extract_spec w with ⟨h1, h2⟩ | ⟨i0, _, h2, hE⟩
  · rw [h1]; exact Or.inr (hnear _ (h2 i hi))
  · have ht : ∀ i, choiceTotal (ensureWt w) i = choiceTotal w i := by
      intro i; unfold choiceTotal; rw [ensureWt_nAlts, ensureWt_ch]
    have hcong : ∀ k, choiceTotal (extract w) k = ∑ j ∈ Finset.range w.nAlts, (extract w).ch k j := by
      intro k; unfold choiceTotal; rw [hE.nAlts, ensureWt_nAlts]
    by_cases hp : i0 ≤ i
    · rw [hcong]
      simp only [hE.ch i ⟨hp, hi⟩, ht, ensureWt_ch]
      by_cases h0 : choiceTotal w i = 0
      · left; simp only [h0, ne_eq, not_true_eq_false, if_false]; exact h0
      · right
        simp only [ne_eq, h0, not_false_eq_true, if_true]
        rw [← Finset.sum_div]
        change |choiceTotal w i / choiceTotal w i - 1| ≤ _
        rw [div_self h0]; simp
    · right
      have : choiceTotal (extract w) i = choiceTotal w i := by
        rw [hcong]
        unfold choiceTotal
        refine Finset.sum_congr rfl (fun j _ => ?_)
        rw [(hE.same i (fun h => hp h.1)).1 j, ensureWt_ch]
      rw [this]
      exact hnear _ (h2 i (by omega))

theorem extract_same (w : W K) (ht : ∀ i < w.nCases, choiceTotal w i = 1) : extract w = w := by
  have hoff : offTotal (1 : K) = false := by simp only [offTotal]; norm_num
  unfold extract
  cases hf : firstOff w with
  | none => rfl
  | some k =>
    have h' := List.find?_range_eq_some.mp hf
    have hk := List.mem_range.mp h'.2.1
    have := h'.1
    rw [rowTotal_eq] at this
    have h2 := ht k hk
    unfold choiceTotal at h2
    rw [h2, hoff] at this
    exact absurd this (by simp)

/-- **C77 (undoing).** When the choices of every case add up to one, `unscale_weights` after a successful `scale_weights` or
`autoscale_weights` restores weights and normalization (of weights not scaled before). -/
theorem C77_unscale (w : W K) (wt : Nat → K) (hw : w.wt = some wt) (hnorm : w.norm = 1)
    (ht : ∀ i < w.nCases, choiceTotal w i = 1) (hn : 0 < w.nCases) (c : Call K)
    (hok : ∃ s, callOut w c = .ok s) :
    (call (call w c) .unscale).wt = some wt ∧ (call (call w c) .unscale).norm = 1 ∧ (call (call w c) .unscale).ch = w.ch := by
  have hex := extract_same w ht
  have key : ∀ level : K, (∃ s, (rescale w wt level).2 = .ok s) →
      (unscaleWeights (rescale w wt level).1).1.wt = some wt ∧ (unscaleWeights (rescale w wt level).1).1.norm = 1 ∧
      (unscaleWeights (rescale w wt level).1).1.ch = w.ch := by
    rintro level ⟨s, hs⟩
    unfold rescale at hs ⊢
    split_ifs at hs ⊢ with hl
    have hl0 : level ≠ 0 := fun e => hl ⟨e, by omega⟩
    unfold unscaleWeights
    have hne : w.norm * level ≠ 0 := by rw [hnorm, one_mul]; exact hl0
    dsimp only
    rw [if_neg hne]
    refine ⟨?_, div_self hne, rfl⟩
    simp only [Option.some.injEq]
    funext i
    rw [hnorm, one_mul]
    field_simp
  cases c with
  | unscale =>
    have : unscaleWeights w = (w, .ok 1) := by
      unfold unscaleWeights
      rw [hw]
      simp only [hnorm, mul_one]
      rw [if_neg one_ne_zero, div_one]
      cases w; simp_all
    show (unscaleWeights (unscaleWeights w).1).1.wt = _ ∧ (unscaleWeights (unscaleWeights w).1).1.norm = _ ∧
      (unscaleWeights (unscaleWeights w).1).1.ch = _
    rw [this]; dsimp only; rw [this]
    exact ⟨hw, hnorm, rfl⟩
  | scale s =>
    have : scaleWeights w s = rescale w wt s := by rw [scaleWeights_some s (by rw [hex]; exact hw), hex]
    simp only [callOut] at hok
    rw [this] at hok
    show (unscaleWeights (scaleWeights w s).1).1.wt = _ ∧ (unscaleWeights (scaleWeights w s).1).1.norm = _ ∧
      (unscaleWeights (scaleWeights w s).1).1.ch = _
    rw [this]
    exact key s hok
  | autoscale =>
    have : autoscaleWeights w = rescale w wt (wtSum w wt / w.nCases) := by
      rw [autoscaleWeights_some (by rw [hex]; exact hw), hex, if_neg (by omega)]
    simp only [callOut] at hok
    rw [this] at hok
    show (unscaleWeights (autoscaleWeights w).1).1.wt = _ ∧ (unscaleWeights (autoscaleWeights w).1).1.norm = _ ∧
      (unscaleWeights (autoscaleWeights w).1).1.ch = _
    rw [this]
    exact key _ hok

/-- **C77 (total weight).** When the choices of every case add up to one, `total_weight()` is the same after any sequence of calls. -/
theorem C77_total_weight (w : W K) (ht : ∀ i < w.nCases, choiceTotal w i = 1) (calls : List (Call K)) :
    totalWeight (calls.foldl call w) = totalWeight w := by
  have hres : ∀ (v : W K) (wt : Nat → K) (level : K), v.wt = some wt → totalWeight (rescale v wt level).1 = totalWeight v := by
    intro v wt level hv
    unfold rescale
    split_ifs with hl
    · rfl
    · by_cases h0 : v.nCases = 0
      · simp [totalWeight, hv, wtSum, h0]
      · have hl0 : level ≠ 0 := fun e => hl ⟨e, h0⟩
        simp only [totalWeight, hv, wtSum]
        rw [← Finset.sum_div]
        field_simp
  have hsh : ∀ (v : W K) (wt : Nat → K) (level : K), (rescale v wt level).1.ch = v.ch ∧ (rescale v wt level).1.nAlts = v.nAlts ∧
      (rescale v wt level).1.nCases = v.nCases := by
    intro v wt level; unfold rescale; split_ifs <;> exact ⟨rfl, rfl, rfl⟩
  have step : ∀ (w : W K) (c : Call K), (∀ i < w.nCases, choiceTotal w i = 1) →
      totalWeight (call w c) = totalWeight w ∧ (call w c).ch = w.ch ∧ (call w c).nAlts = w.nAlts ∧ (call w c).nCases = w.nCases := by
    intro w c ht
    have hex := extract_same w ht
    cases c with
    | scale s =>
      show totalWeight (scaleWeights w s).1 = _ ∧ (scaleWeights w s).1.ch = _ ∧ (scaleWeights w s).1.nAlts = _ ∧
        (scaleWeights w s).1.nCases = _
      cases hw : w.wt with
      | none =>
        rw [scaleWeights_none s (by rw [hex]; exact hw), hex]
        split_ifs <;> exact ⟨rfl, rfl, rfl, rfl⟩
      | some wt =>
        rw [scaleWeights_some s (by rw [hex]; exact hw), hex]
        exact ⟨hres w wt s hw, hsh w wt s⟩
    | autoscale =>
      show totalWeight (autoscaleWeights w).1 = _ ∧ (autoscaleWeights w).1.ch = _ ∧ (autoscaleWeights w).1.nAlts = _ ∧
        (autoscaleWeights w).1.nCases = _
      cases hw : w.wt with
      | none =>
        rw [autoscaleWeights_none (by rw [hex]; exact hw), hex]
        exact ⟨rfl, rfl, rfl, rfl⟩
      | some wt =>
        rw [autoscaleWeights_some (by rw [hex]; exact hw), hex]
        split_ifs
        · exact ⟨rfl, rfl, rfl, rfl⟩
        · exact ⟨hres w wt _ hw, hsh w wt _⟩
    | unscale =>
      show totalWeight (unscaleWeights w).1 = _ ∧ (unscaleWeights w).1.ch = _ ∧ (unscaleWeights w).1.nAlts = _ ∧
        (unscaleWeights w).1.nCases = _
      unfold unscaleWeights
      cases hw : w.wt with
      | none => exact ⟨rfl, rfl, rfl, rfl⟩
      | some wt =>
        dsimp only
        split_ifs with hn
        · exact ⟨by simp [totalWeight, hw, hn], rfl, rfl, rfl⟩
        · refine ⟨?_, rfl, rfl, rfl⟩
          simp only [totalWeight, hw, wtSum]
          rw [← Finset.sum_mul]
          field_simp
  induction calls generalizing w with
  | nil => rfl
  | cons c cs ih =>
    obtain ⟨a, b, c', d⟩ := step w c ht
    rw [List.foldl_cons, ih (call w c), a]
    intro i hi
    unfold choiceTotal
    rw [b, c']
    exact ht i (d ▸ hi)

/-- Choices of zero stay zero. -/
theorem zero_stays (w : W K) (i j : Nat) (h : w.ch i j = 0) (calls : List (Call K)) : (calls.foldl call w).ch i j = 0 := by
  have hx : ∀ w : W K, w.ch i j = 0 → (extract w).ch i j = 0 := by
    intro w h
    rcases extract_spec w with ⟨he, _⟩ | ⟨i0, _, _, hE⟩
    · rw [he]; exact h
    · by_cases hp : i0 ≤ i ∧ i < w.nCases
      · rw [hE.ch i hp j, ensureWt_ch, h]; simp
      · rw [(hE.same i hp).1 j, ensureWt_ch, h]
  induction calls generalizing w with
  | nil => exact h
  | cons c cs ih =>
    rw [List.foldl_cons]
    apply ih
    cases c with
    | scale s =>
      show (scaleWeights w s).1.ch i j = 0
      cases hw : (extract w).wt with
      | none => rw [scaleWeights_none s hw]; split_ifs <;> exact hx w h
      | some wt => rw [scaleWeights_some s hw]; unfold rescale; split_ifs <;> exact hx w h
    | autoscale =>
      show (autoscaleWeights w).1.ch i j = 0
      cases hw : (extract w).wt with
      | none => rw [autoscaleWeights_none hw]; exact hx w h
      | some wt => rw [autoscaleWeights_some hw]; unfold rescale; split_ifs <;> exact hx w h
    | unscale =>
      show (unscaleWeights w).1.ch i j = 0
      unfold unscaleWeights
      cases w.wt with
      | none => exact h
      | some wt => dsimp only; split_ifs <;> exact h

/-- Without weight data, `scale_weights` works only for a scale of one: it uses the weight array that was never made. -/
theorem C77_fails_no_weights (w : W K) (hw : w.wt = none) (ht : ∀ i < w.nCases, choiceTotal w i = 1) (s : K) (hs : s ≠ 1) :
    callOut w (.scale s) = .error .noWeights := by
  have hex := extract_same w ht
  simp only [callOut]
  rw [scaleWeights_none s (by rw [hex]; exact hw), if_neg hs]

end

/-! ## Witnesses -/

/-- Three cases, two alternatives, weights 2, 1, 3; the second case carries a weight of 4 in its choices, the third has no choice. -/
def demoW : W ℚ where
  nCases := 3
  nAlts := 2
  ch := fun i j => if i = 0 ∧ j = 1 then 1 else if i = 1 ∧ j = 0 then 3 else if i = 1 ∧ j = 1 then 1 else 0
  wt := some (fun i => if i = 0 then 2 else if i = 1 then 1 else 3)
  norm := 1

theorem demoW_nonneg : NonnegChoices demoW := by
  intro i hi j hj
  simp only [demoW]
  split_ifs <;> norm_num

/-- The theorems apply to it, and the calls do something: the average of 2, 4 and 0 is 2. -/
example : ((autoscaleWeights demoW).2 = .ok 2) ∧ caseWt (call demoW .autoscale) 1 = 2 ∧ (call demoW .autoscale).ch 1 0 = 3 / 4 ∧
    (call demoW .autoscale).norm = 2 ∧ contribution demoW 1 0 = 3 ∧ contribution (call demoW .autoscale) 1 0 = 3 := by
  have h := (C77_contributions demoW demoW_nonneg [.autoscale]).2.2 1 (by decide) 0 (by decide)
  refine ⟨by decide +kernel, by decide +kernel, by decide +kernel, by decide +kernel, by decide +kernel, ?_⟩
  exact h.trans (by decide +kernel)

/-- `C77_average` applies to it. -/
example : (∑ i ∈ Finset.range (call demoW .autoscale).nCases, caseWt (call demoW .autoscale) i) / (call demoW .autoscale).nCases = 1 := by
  have h : autoscaleWeights demoW = ((autoscaleWeights demoW).1, .ok 2) := Prod.ext rfl (by decide +kernel)
  exact (C77_average demoW h (by decide)).1

/-- `C77_unscale` and `C77_total_weight` apply to ordinary weighted data. -/
def plainW : W ℚ := ⟨2, 2, fun i j => if i = j then 1 else 0, some (fun i => if i = 0 then 2 else 3), 1⟩

theorem plainW_total : ∀ i < plainW.nCases, choiceTotal plainW i = 1 := by
  intro i hi
  have : i = 0 ∨ i = 1 := by have : i < 2 := hi; omega
  rcases this with rfl | rfl <;> decide +kernel

example : (call (call plainW (.scale 7)) .unscale).wt = plainW.wt ∧ totalWeight (call plainW (.scale 7)) = 5 :=
  ⟨(C77_unscale plainW _ rfl rfl plainW_total (by decide) (.scale 7) ⟨7, by decide +kernel⟩).1,
    (C77_total_weight plainW plainW_total [.scale 7]).trans (by decide +kernel)⟩

/-- Weights embedded in the choices: a single case, choice 2. -/
def embeddedW : W ℚ := ⟨1, 2, fun _ j => if j = 0 then 2 else 0, none, 1⟩

/-- **C77 fails for `total_weight()`** when weights are embedded in the choices: it counts one before, two after autoscaling, so that
quantities per unit of weight change. -/
theorem C77_fails_total_weight : NonnegChoices embeddedW ∧ totalWeight embeddedW = 1 ∧ totalWeight (call embeddedW .autoscale) = 2 := by
  refine ⟨fun i _ j _ => ?_, by decide +kernel, by decide +kernel⟩
  simp only [embeddedW]; split_ifs <;> norm_num

/-- Data to which a model is applied: weights but no observed choices. -/
def unchosenW : W ℚ := ⟨2, 2, fun _ _ => 0, some (fun i => if i = 0 then 2 else 3), 1⟩

/-- **C77 fails for data without observed choices**: `autoscale_weights` raises `ZeroDivisionError`, and the weights are gone. -/
theorem C77_fails_no_choices : NonnegChoices unchosenW ∧ callOut unchosenW .autoscale = .error .zeroDivision ∧
    caseWt (call unchosenW .autoscale) 0 = 0 ∧ caseWt (call unchosenW .autoscale) 1 = 0 :=
  ⟨fun _ _ _ _ => le_refl _, by decide +kernel, by decide +kernel, by decide +kernel⟩

/-- The condition on the sign of choices is needed. -/
theorem C77_needs_nonnegative : ∃ w : W ℚ, contribution (call w .autoscale) 0 0 ≠ contribution w 0 0 :=
  ⟨⟨2, 2, fun i j => if i = 0 then (if j = 0 then 1 else -1) else (if j = 0 then 1 else 0), none, 1⟩, by decide +kernel⟩

/-! ## Results of the compiled engine -/

section
open Larch.Kernel Larch.Compiled

/-- The data of case `i` with the choices and the weight held by `w`. -/
noncomputable def caseOf (base : Nat → Case) (w : W ℝ) (i : Nat) : Case := { base i with ch := w.ch i, wt := caseWt w i }

theorem caseOf_offers {n : Nat} {M : Terms} {base : Nat → Case} {A : Nat → Bool} {x : Nat → Nat → ℝ} {i : Nat}
    (h : Offers n M (base i) A x) (w : W ℝ) : Offers n M (caseOf base w i) A x := ⟨h.dense, h.sparse, h.co⟩

/-- **C77 (results).** For a nested or network logit model: the normalized log likelihood, gradient and BHHH contribution of every case
are unchanged by any sequence of calls. -/
theorem C77_results {T : Tree} {M : Terms} {θ : Nat → ℝ} {A : Nat → Bool} {x : Nat → Nat → ℝ} (base : Nat → Case) (w : W ℝ)
    (h : NonnegChoices w) (calls : List (Call ℝ)) (i : Nat) (hi : i < w.nCases) (hn : w.nAlts = T.nAlts)
    (hC : NetworkCase T M θ (base i) A x) (hold : Nat → Bool)
    (hch : ∀ a < T.nAlts, w.ch i a ≠ 0 → A a = true) :
    ∃ (l l' : ℝ) (g g' : Nat → ℝ) (b b' : Nat → Nat → ℝ),
      (nlCase T M hold θ (caseOf base w i)).ll = .fin l ∧
      (nlCase T M hold θ (caseOf base (calls.foldl call w) i)).ll = .fin l' ∧ l' * (calls.foldl call w).norm = l * w.norm ∧
      (∀ p, (nlCase T M hold θ (caseOf base w i)).dll p = .fin (g p) ∧
        (nlCase T M hold θ (caseOf base (calls.foldl call w) i)).dll p = .fin (g' p) ∧
        g' p * (calls.foldl call w).norm = g p * w.norm) ∧
      (∀ p q, (nlCase T M hold θ (caseOf base w i)).bhhh p q = .fin (b p q) ∧
        (nlCase T M hold θ (caseOf base (calls.foldl call w) i)).bhhh p q = .fin (b' p q) ∧
        b' p q * (calls.foldl call w).norm = b p q * w.norm) := by
  set w' := calls.foldl call w with hw'
  obtain ⟨_, _, hc⟩ := C77_contributions w h calls
  have hsum : ∀ f : Nat → ℝ, (caseWt w' i * ∑ a ∈ Finset.range T.nAlts, w'.ch i a * f a) * w'.norm =
      (caseWt w i * ∑ a ∈ Finset.range T.nAlts, w.ch i a * f a) * w.norm := by
    intro f
    rw [Finset.mul_sum, Finset.sum_mul, Finset.mul_sum, Finset.sum_mul]
    refine Finset.sum_congr rfl (fun a ha => ?_)
    have := hc i hi a (by rw [hn]; exact Finset.mem_range.mp ha)
    unfold contribution at this
    linear_combination f a * this
  have hN : NetworkCase T M θ (caseOf base w i) A x := ⟨hC.net, hC.mu, caseOf_offers hC.offers w, hC.sizes⟩
  have hN' : NetworkCase T M θ (caseOf base w' i) A x := ⟨hC.net, hC.mu, caseOf_offers hC.offers w', hC.sizes⟩
  have hc1 : ∀ a < T.nAlts, (caseOf base w i).ch a ≠ 0 → A a = true := hch
  have hc2 : ∀ a < T.nAlts, (caseOf base w' i).ch a ≠ 0 → A a = true := by
    intro a ha h0
    exact hch a ha (fun e => h0 (zero_stays w i a e calls))
  obtain ⟨Q, hQ, _, _⟩ := run_dP hN hold
  have hQ' : ∀ n < T.nNodes, (netOf T A).avail n → ∀ p,
      (nlCase T M hold θ (caseOf base w' i)).dprobability n p = .fin (Q n p) := hQ
  obtain ⟨g1, g2⟩ := Compiled.run_grad hN hold hc1 Q hQ
  obtain ⟨g1', g2'⟩ := Compiled.run_grad hN' hold hc2 Q hQ'
  refine ⟨_, _, _, _, _, _, C74_loglike hN hold hc1, C74_loglike hN' hold hc2, ?_, fun p => ⟨g1 p, g1' p, ?_⟩,
    fun p q => ⟨g2 p q, g2' p q, ?_⟩⟩
  · exact hsum (fun a => Real.log ((netOf T A).prob (muN T θ) (utility M θ (coReal (base i)) x) a))
  · exact hsum (fun a => Q a p / netProb T M θ (base i) A x a)
  · exact hsum (fun a => Q a p / netProb T M θ (base i) A x a * (Q a q / netProb T M θ (base i) A x a))

/-- `C77_results` applies to a network logit model and a case with a weight embedded in its choice. -/
example : ∃ (l l' : ℝ), (nlCase twiceTree noTerms (fun _ => false) (fun _ => 1)
      (caseOf (fun _ => plainCase 0) ⟨1, 2, fun _ j => if j = 0 then 2 else 0, none, 1⟩ 0)).ll = .fin l ∧
    l' * (call ⟨1, 2, fun _ j => if j = 0 then 2 else 0, none, 1⟩ Call.autoscale).norm = l * (1 : ℝ) := by
  obtain ⟨l, l', _, _, _, _, h1, _, h3, _⟩ := C77_results (fun _ => plainCase 0) (⟨1, 2, fun _ j => if j = 0 then 2 else 0, none, 1⟩ : W ℝ)
    (fun i _ j _ => by dsimp only; split_ifs <;> norm_num) [.autoscale] 0 (by simp) rfl (twice_case 1 one_pos) (fun _ => false)
    (fun _ _ _ => rfl)
  exact ⟨l, l', h1, h3⟩

end
end Larch.Props
