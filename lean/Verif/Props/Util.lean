import Verif.Model.Util
import Verif.Lemmas.AltCodes
import Mathlib.Tactic.Linarith
import Mathlib.Tactic.NormNum
import Mathlib.Tactic.FieldSimp
import Mathlib.Algebra.Order.Field.Basic
import Mathlib.Algebra.Order.BigOperators.Group.List

/-!
# C35-C38, C41, C45, C49-C52: array utilities
-/

namespace Larch.Props

open Larch.Util

/-! ## C35: piecewise linear expansion -/

/-- Values of a leg: nothing below its lower bound, the excess over the lower bound inside, its width above. -/
theorem C35_leg_values (x lo hi : ℝ) (h : lo ≤ hi) :
    (x ≤ lo → piece x (some lo) (some hi) = 0) ∧
    (lo ≤ x → x ≤ hi → piece x (some lo) (some hi) = x - lo) ∧
    (hi ≤ x → piece x (some lo) (some hi) = hi - lo) ∧
    0 ≤ piece x (some lo) (some hi) ∧ piece x (some lo) (some hi) ≤ hi - lo := by
  simp only [piece, clip]
  refine ⟨fun h1 => ?_, fun h1 h2 => ?_, fun h1 => ?_, ?_, ?_⟩
  · rw [max_eq_right h1, min_eq_left h]; ring
  · rw [max_eq_left h1, min_eq_left h2]
  · rw [max_eq_left (le_trans h h1), min_eq_right h1]
  · have : lo ≤ min (max x lo) hi := le_min (le_max_right _ _) h
    linarith
  · have : min (max x lo) hi ≤ hi := min_le_right _ _
    linarith

theorem legs_tail_sum (x : ℝ) : ∀ (bs : List ℝ) (b : ℝ), (b :: bs).Pairwise (· ≤ ·) →
    ((((b :: bs).zip bs).map (fun p => piece x (some p.1) (some p.2))).sum +
      piece x (some ((b :: bs).getLast (by simp))) none) = max (x - b) 0 := by
  intro bs
  induction bs with
  | nil => intro b _; simp [piece]
  | cons b1 bs ih =>
    intro b h
    have hb : b ≤ b1 := (List.pairwise_cons.mp h).1 b1 (by simp)
    have := ih b1 (List.pairwise_cons.mp h).2
    simp only [List.zip_cons_cons, List.map_cons, List.sum_cons]
    rw [List.getLast_cons (by simp), add_assoc, this]
    simp only [piece, clip]
    rcases le_total x b with h1 | h1
    · rw [max_eq_right h1, min_eq_left hb, max_eq_right (by linarith), max_eq_right (by linarith)]; ring
    · rcases le_total x b1 with h2 | h2
      · rw [max_eq_left h1, min_eq_left h2, max_eq_right (by linarith), max_eq_left (by linarith)]; ring
      · rw [max_eq_left h1, min_eq_right h2, max_eq_left (by linarith), max_eq_left (by linarith)]; ring

/-- **C35 (sum).** For non-decreasing breakpoints there is one piece per leg (one more than breakpoints) and the pieces add
up to the original value. -/
theorem C35_pieces_sum (x : ℝ) (breaks : List ℝ) (hne : breaks ≠ []) (hs : breaks.Pairwise (· ≤ ·)) :
    ∃ l, piecewiseExpansion x breaks = some l ∧ l.length = breaks.length + 1 ∧ l.sum = x := by
  cases breaks with
  | nil => exact absurd rfl hne
  | cons b bs =>
    refine ⟨_, rfl, ?_, ?_⟩
    · simp
    · simp only [List.cons_append, List.map_cons, List.map_append, List.map_map, List.map_nil, List.sum_cons,
        List.sum_append, List.sum_nil, add_zero]
      have := legs_tail_sum x bs b hs
      simp only [Function.comp_def]
      rw [this]
      simp only [piece]
      rcases le_total x b with h | h
      · rw [min_eq_left h, max_eq_right (by linarith)]; ring
      · rw [min_eq_right h, max_eq_left (by linarith)]; ring

theorem sum_scaled (β : ℝ) : ∀ l : List ℝ, (l.map (fun v => v * β)).sum = l.sum * β
  | [] => by simp
  | a :: l => by rw [List.map_cons, List.sum_cons, List.sum_cons, sum_scaled β l]; ring

/-- **C35 (equal slopes).** With the same slope on every leg the piecewise function is linear. -/
theorem C35_equal_slopes (x β : ℝ) (breaks : List ℝ) (hne : breaks ≠ []) (hs : breaks.Pairwise (· ≤ ·)) :
    ∃ l, piecewiseExpansion x breaks = some l ∧ (l.map (fun v => v * β)).sum = x * β := by
  obtain ⟨l, h1, _, h3⟩ := C35_pieces_sum x breaks hne hs
  refine ⟨l, h1, ?_⟩
  rw [← h3]; exact sum_scaled β l

/-- The legs are the declared ones: up to the first break, between consecutive breaks, over the last. -/
theorem C35_legs (b : ℝ) (bs : List ℝ) (x : ℝ) :
    piecewiseExpansion x (b :: bs) = some (min x b :: ((b :: bs).zip bs).map (fun p => piece x (some p.1) (some p.2)) ++
      [max (x - (b :: bs).getLast (by simp)) 0]) := by
  simp [piecewiseExpansion, legs, piece, Function.comp_def]

example : piecewiseExpansion 7 [2, 5, 10] = some [2, 3, 2, 0] := by
  rw [C35_legs]; norm_num [piece, clip]

/-- **C35.** No breakpoints: IndexError. -/
theorem C35_no_breaks (x : ℝ) : piecewiseExpansion x [] = none := rfl

/-! ## C49: breakpoints can be read back -/

theorem inferMid_ok {α : Type} [DecidableEq α] : ∀ (bs : List α) (b : α) (acc : List α),
    inferMid acc b (((b :: bs).zip bs).map (fun p => (some p.1, some p.2))) =
      .ok (acc ++ bs, (b :: bs).getLast (by simp)) := by
  intro bs
  induction bs with
  | nil => intro b acc; simp [inferMid]
  | cons b1 bs ih =>
    intro b acc
    simp only [List.zip_cons_cons, List.map_cons, inferMid, if_true]
    rw [ih b1 (acc ++ [b1])]
    simp [List.getLast_cons]

/-- **C49.** The breakpoints inferred from the legs of a piecewise linear function are the ones it was made with. -/
theorem C49_breaks_round_trip {α : Type} [DecidableEq α] (breaks : List α) (hne : breaks ≠ []) :
    ∃ l, legs breaks = some l ∧ inferBreaks l = .ok breaks := by
  cases breaks with
  | nil => exact absurd rfl hne
  | cons b bs =>
    refine ⟨_, rfl, ?_⟩
    simp only [inferBreaks, List.cons_append]
    rw [List.getLast?_concat]
    simp only [List.dropLast_concat, inferMid_ok, ne_eq, not_true_eq_false, if_false]
    simp

theorem inferMid_inv {α : Type} [DecidableEq α] : ∀ (l : List (Option α × Option α)) (b : α) (acc acc' : List α) (last : α),
    inferMid acc b l = .ok (acc', last) →
      ∃ bs, acc' = acc ++ bs ∧ l = ((b :: bs).zip bs).map (fun p => (some p.1, some p.2)) ∧
        last = (b :: bs).getLast (by simp) := by
  intro l
  induction l with
  | nil =>
    intro b acc acc' last h
    simp [inferMid] at h
    exact ⟨[], by simp [h.1], by simp, by simp [h.2]⟩
  | cons p l ih =>
    intro b acc acc' last h
    obtain ⟨lo, hi⟩ := p
    cases lo with
    | none => simp [inferMid] at h
    | some lo =>
      cases hi with
      | none => simp [inferMid] at h
      | some hi =>
        simp only [inferMid] at h
        split at h
        · next hb =>
          subst hb
          obtain ⟨bs, h1, h2, h3⟩ := ih hi (acc ++ [hi]) acc' last h
          refine ⟨hi :: bs, by simp [h1], by simp [h2], by rw [h3]; exact (List.getLast_cons (by simp)).symm⟩
        · simp at h

/-- **C49 (converse).** Whenever breakpoints are inferred from a list of legs, those legs are exactly the piecewise legs of
these breakpoints: disconnected or bounded functions are refused. -/
theorem C49_inferred_legs {α : Type} [DecidableEq α] (l : List (Option α × Option α)) (breaks : List α)
    (h : inferBreaks l = .ok breaks) : legs breaks = some l := by
  unfold inferBreaks at h
  split at h
  · next b0 rest =>
    split at h
    · simp at h
    · next lo hi hlast =>
      split at h
      · simp at h
      · next acc last hmid =>
        split at h
        · simp at h
        · next h1 =>
          split at h
          · simp at h
          · next h2 =>
            obtain ⟨bs, e1, e2, e3⟩ := inferMid_inv _ _ _ _ _ hmid
            have h1' : lo = some last := by simpa using h1
            have h2' : hi = none := by simpa using h2
            have hb : breaks = b0 :: bs := by
              have := Except.ok.inj h
              rw [← this, e1]; simp
            subst hb h1' h2' e3
            have hr : rest = rest.dropLast ++ [(some ((b0 :: bs).getLast (by simp)), none)] := by
              have hne : rest ≠ [] := by rintro rfl; simp at hlast
              conv_lhs => rw [← List.dropLast_append_getLast hne]
              rw [List.getLast?_eq_some_getLast hne] at hlast
              rw [Option.some.inj hlast]
            conv_rhs => rw [hr, e2]
            simp [legs]
  · simp at h
  · simp at h

example : inferBreaks [(none, some 3), (some 3, some 5), (some 5, none)] = .ok [3, 5] ∧
    inferBreaks [(none, some 3), (some 4, some 5), (some 5, none)] = .error "NotImplementedError" := by decide

/-! ## C36: hard_sigmoid -/

theorem clip01_mono {x y : ℝ} (h : x ≤ y) : clip x 0 1 ≤ clip y 0 1 :=
  min_le_min_right _ (max_le_max_right _ h)

theorem clip01_range (x : ℝ) : 0 ≤ clip x 0 1 ∧ clip x 0 1 ≤ 1 :=
  ⟨le_min (le_max_right _ _) zero_le_one, min_le_right _ _⟩

theorem clip01_low {x : ℝ} (h : x ≤ 0) : clip x 0 1 = 0 := by
  simp [clip, max_eq_right h]

theorem clip01_high {x : ℝ} (h : 1 ≤ x) : clip x 0 1 = 1 := by
  simp only [clip]; rw [max_eq_left (by linarith), min_eq_right h]

theorem clip01_mid {x : ℝ} (h0 : 0 ≤ x) (h1 : x ≤ 1) : clip x 0 1 = x := by
  simp only [clip]; rw [max_eq_left h0, min_eq_left h1]

/-- **C36 (range).** Always between 0 and 1. -/
theorem C36_range (x z o : ℝ) : 0 ≤ hardSigmoid x z o ∧ hardSigmoid x z o ≤ 1 := by
  unfold hardSigmoid
  split
  · exact clip01_range _
  · split
    · split <;> norm_num
    · exact clip01_range _

/-- **C36 (increasing ramp).** `zero_bound < one_bound`: 0 up to `zero_bound`, 1 from `one_bound`, the straight line in between,
non-decreasing. -/
theorem C36_increasing {z o : ℝ} (h : z < o) :
    (∀ x ≤ z, hardSigmoid x z o = 0) ∧ (∀ x, o ≤ x → hardSigmoid x z o = 1) ∧
    (∀ x, z ≤ x → x ≤ o → hardSigmoid x z o = (x - z) / (o - z)) ∧
    (∀ x y, x ≤ y → hardSigmoid x z o ≤ hardSigmoid y z o) := by
  have hd : 0 < o - z := by linarith
  simp only [hardSigmoid, h, if_true]
  refine ⟨fun x hx => clip01_low (div_nonpos_of_nonpos_of_nonneg (by linarith) hd.le),
    fun x hx => clip01_high ((one_le_div hd).mpr (by linarith)),
    fun x h1 h2 => clip01_mid (div_nonneg (by linarith) hd.le) ((div_le_one hd).mpr (by linarith)),
    fun x y hxy => clip01_mono ?_⟩
  exact div_le_div_of_nonneg_right (by linarith) hd.le

/-- **C36 (decreasing ramp).** `one_bound < zero_bound`: mirrored. -/
theorem C36_decreasing {z o : ℝ} (h : o < z) :
    (∀ x, z ≤ x → hardSigmoid x z o = 0) ∧ (∀ x ≤ o, hardSigmoid x z o = 1) ∧
    (∀ x, o ≤ x → x ≤ z → hardSigmoid x z o = (z - x) / (z - o)) ∧
    (∀ x y, x ≤ y → hardSigmoid y z o ≤ hardSigmoid x z o) := by
  have hd : 0 < z - o := by linarith
  have h1 : ¬ z < o := by linarith
  have h2 : ¬ z = o := by rintro rfl; exact lt_irrefl _ h
  simp only [hardSigmoid, h1, h2, if_false]
  refine ⟨fun x hx => clip01_low (div_nonpos_of_nonpos_of_nonneg (by linarith) hd.le),
    fun x hx => clip01_high ((one_le_div hd).mpr (by linarith)),
    fun x h1 h2 => clip01_mid (div_nonneg (by linarith) hd.le) ((div_le_one hd).mpr (by linarith)),
    fun x y hxy => clip01_mono ?_⟩
  exact div_le_div_of_nonneg_right (by linarith) hd.le

/-- **C36 (equal bounds).** A step: 0 up to and including the bound, 1 beyond it (so "1 at `one_bound`" is only true when the
bounds differ). -/
theorem C36_equal_bounds (z x : ℝ) : hardSigmoid x z z = if z < x then 1 else 0 := by
  simp [hardSigmoid]

example : hardSigmoid 3 2 4 = 1 / 2 ∧ hardSigmoid 3 4 2 = 1 / 2 := by
  constructor
  · rw [(C36_increasing (by norm_num : (2 : ℝ) < 4)).2.2.1 3 (by norm_num) (by norm_num)]; norm_num
  · rw [(C36_decreasing (by norm_num : (2 : ℝ) < 4)).2.2.1 3 (by norm_num) (by norm_num)]; norm_num

/-! ## C37: periodize -/

/-- Specification: a value lies in a period (missing bounds are infinite, ends open or closed). -/
def Covers {κ : Type} (left right : Bool) (v : Option ℝ) (p : Period κ) : Prop :=
  ∃ x, v = some x ∧ (∀ l, p.lower = some l → l < x ∨ (left = true ∧ x = l)) ∧
    (∀ u, p.upper = some u → x < u ∨ (right = true ∧ x = u))

theorem inPeriod_iff {κ : Type} (left right : Bool) (v : Option ℝ) (p : Period κ) :
    inPeriod left right v p = true ↔ Covers left right v p := by
  unfold inPeriod Covers
  cases v with
  | none => simp
  | some x =>
    have h1 : ∀ (l : ℝ), (if left then decide (x ≥ l) else decide (x > l)) = true ↔ (l < x ∨ (left = true ∧ x = l)) := by
      intro l
      cases left
      · simp
      · rw [if_pos rfl, decide_eq_true_iff, ge_iff_le, le_iff_lt_or_eq, eq_comm (a := l)]; simp
    have h2 : ∀ (u : ℝ), (if right then decide (x ≤ u) else decide (x < u)) = true ↔ (x < u ∨ (right = true ∧ x = u)) := by
      intro u
      cases right
      · simp
      · rw [if_pos rfl, decide_eq_true_iff, le_iff_lt_or_eq]; simp
    cases hl : p.lower <;> cases hu : p.upper <;> simp [h1, h2]

theorem period_fold {κ : Type} (left right : Bool) (v : Option ℝ) (l : List (Period κ)) :
    ∀ d, ((∀ p ∈ l, ¬ Covers left right v p) →
      l.foldl (fun x p => if inPeriod left right v p then p.label else x) d = d) := by
  induction l with
  | nil => intro d _; rfl
  | cons p l ih =>
    intro d h
    have hp : ¬ inPeriod left right v p = true := fun hc => h p (by simp) ((inPeriod_iff _ _ _ _).mp hc)
    rw [List.foldl_cons, if_neg hp]
    exact ih d (fun q hq => h q (by simp [hq]))

/-- **C37.** A value gets the label of the last period (mapping first, then keyword arguments) that covers it, the default if
none does; NaN gets the default. -/
theorem C37_last_match {κ : Type} (mapping kwargs : List (Period κ)) (default : κ) (left right : Bool) (v : Option ℝ) :
    ((∀ p ∈ mapping ++ kwargs, ¬ Covers left right v p) → periodize mapping kwargs default left right v = default) ∧
    (∀ before p after, mapping ++ kwargs = before ++ p :: after → Covers left right v p →
      (∀ q ∈ after, ¬ Covers left right v q) → periodize mapping kwargs default left right v = p.label) := by
  constructor
  · exact period_fold left right v _ default
  · intro before p after he hp hafter
    unfold periodize
    rw [he, List.foldl_append, List.foldl_cons, if_pos ((inPeriod_iff _ _ _ _).mpr hp)]
    exact period_fold left right v after _ hafter

/-- **C37 (NaN).** -/
theorem C37_nan {κ : Type} (mapping kwargs : List (Period κ)) (default : κ) (left right : Bool) :
    periodize mapping kwargs default left right none = default :=
  (C37_last_match mapping kwargs default left right none).1 (fun p _ => by rintro ⟨x, hx, _⟩; cases hx)

/-- One of the two situations of `C37_last_match` always applies. -/
theorem C37_total {κ : Type} (l : List (Period κ)) (left right : Bool) (v : Option ℝ) :
    (∀ p ∈ l, ¬ Covers left right v p) ∨
    ∃ before p after, l = before ++ p :: after ∧ Covers left right v p ∧ ∀ q ∈ after, ¬ Covers left right v q := by
  induction l with
  | nil => left; simp
  | cons p l ih =>
    rcases ih with h | ⟨b, q, a, rfl, hq, ha⟩
    · by_cases hp : Covers left right v p
      · right; exact ⟨[], p, l, rfl, hp, h⟩
      · left
        intro q hq
        rcases List.mem_cons.mp hq with rfl | hq
        · exact hp
        · exact h q hq
    · right; exact ⟨p :: b, q, a, rfl, hq, ha⟩

/-- The documented example: 9 is AM, 9.5 is the default. -/
example : periodize [] [⟨"AM", some 6.5, some 9⟩, ⟨"PM", some 16, some 19⟩] "OP" true true (some 9) = "AM" ∧
    periodize [] [⟨"AM", some 6.5, some 9⟩, ⟨"PM", some 16, some 19⟩] "OP" true true (some 9.5) = "OP" := by
  constructor
  · refine (C37_last_match _ _ _ _ _ _).2 [] _ [⟨"PM", some 16, some 19⟩] rfl ?_ ?_
    · exact ⟨9, rfl, by simp; norm_num, by simp⟩
    · intro q hq
      simp at hq; subst hq
      rintro ⟨x, hx, h1, _⟩
      cases hx
      have := h1 16 rfl
      norm_num at this
  · refine (C37_last_match _ _ _ _ _ _).1 ?_
    intro q hq
    simp at hq
    rintro ⟨x, hx, h1, h2⟩
    cases hx
    rcases hq with rfl | rfl
    · have := h2 9 rfl; norm_num at this
    · have := h1 16 rfl; norm_num at this

/-- **C37 violated (caller's mapping is changed).** When a list is passed together with keyword arguments, the keyword
periods are appended to the caller's own list. -/
theorem C37_fails_mutates_argument {κ : Type} (mapping kwargs : List (Period κ)) (h : kwargs ≠ []) :
    periodizeCallerList mapping kwargs ≠ mapping := by
  unfold periodizeCallerList
  intro hc
  exact h (by simpa using hc)

/-! ## C38: label_to_index -/

section labels
variable {α : Type} [LinearOrder α]

theorem sortedUnique_iff : ∀ (l : List α), isSortedAndUnique l = true ↔ l.Pairwise (· < ·) := by
  intro l
  induction l with
  | nil => simp [isSortedAndUnique]
  | cons a l ih =>
    cases l with
    | nil => simp [isSortedAndUnique]
    | cons b l =>
      simp only [isSortedAndUnique, Bool.and_eq_true, decide_eq_true_eq, ih]
      constructor
      · rintro ⟨h1, h2⟩
        refine List.Pairwise.cons ?_ h2
        intro x hx
        rcases List.mem_cons.mp hx with rfl | hx
        · exact h1
        · exact lt_trans h1 ((List.pairwise_cons.mp h2).1 x hx)
      · intro h
        exact ⟨(List.pairwise_cons.mp h).1 b (by simp), (List.pairwise_cons.mp h).2⟩

theorem digitize_idx : ∀ (l : List α) (i : Nat) (v : α), l.Pairwise (· < ·) → l[i]? = some v → digitize l v = i := by
  intro l
  induction l with
  | nil => intro i v _ h; simp at h
  | cons a l ih =>
    intro i v hs h
    have hs' := List.pairwise_cons.mp hs
    cases i with
    | zero =>
      simp at h; subst h
      unfold digitize
      have : l.filter (fun b => decide (b < a)) = [] := by
        rw [List.filter_eq_nil_iff]
        intro b hb
        simpa using (hs'.1 b hb).le
      simp [this]
    | succ i =>
      simp at h
      have hav : a < v := hs'.1 v (List.mem_of_getElem? h)
      have := ih i v hs'.2 h
      unfold digitize at this ⊢
      simp [hav, this]

/-- **C38 (sorted labels).** For increasing labels the returned index is the position of the value. -/
theorem C38_sorted (labels : List α) (hs : labels.Pairwise (· < ·)) (i : Nat) (v : α) (h : labels[i]? = some v) :
    labelToIndex labels v = .ok i := by
  have hne : labels ≠ [] := by rintro rfl; simp at h
  simp [labelToIndex, hne, (sortedUnique_iff labels).mpr hs, digitize_idx labels i v hs h]

theorem uniq_sorted (l : List α) : (Larch.AltCodes.uniq l).Pairwise (· < ·) := by
  have h1 : (Larch.AltCodes.uniq l).Pairwise (· ≤ ·) := List.pairwise_insertionSort (· ≤ ·) l.dedup
  have h2 : (Larch.AltCodes.uniq l).Nodup := Larch.AltCodes.uniq_nodup l
  exact (h1.and h2).imp (fun h => lt_of_le_of_ne h.1 h.2)

theorem uniq_length {l : List α} (h : l.Nodup) : (Larch.AltCodes.uniq l).length = l.length := by
  unfold Larch.AltCodes.uniq
  rw [List.length_insertionSort, h.dedup]

theorem uniq_length_ne {l : List α} (h : ¬ l.Nodup) : (Larch.AltCodes.uniq l).length ≠ l.length := by
  unfold Larch.AltCodes.uniq
  rw [List.length_insertionSort]
  intro hc
  apply h
  have := List.dedup_sublist l
  have he := this.eq_of_length hc
  rw [← he]; exact List.nodup_dedup l

/-- Position of a label in sorted order. -/
def rankOf (labels : List α) (v : α) : Nat := (Larch.AltCodes.uniq labels).idxOf v

theorem digitize_uniq {labels : List α} {v : α} (h : v ∈ labels) :
    digitize (Larch.AltCodes.uniq labels) v = rankOf labels v := by
  have hm := Larch.AltCodes.mem_uniq.mpr h
  have hl := List.idxOf_lt_length_iff.mpr hm
  refine digitize_idx _ _ v (uniq_sorted labels) ?_
  show (Larch.AltCodes.uniq labels)[(Larch.AltCodes.uniq labels).idxOf v]? = some v
  rw [List.getElem?_eq_getElem hl]
  simp

/-- What the code returns for unsorted unique labels: the sorted position of the label stored at the sorted position of the
value. -/
theorem C38_unsorted_actual (labels : List α) (hnd : labels.Nodup) (hs : ¬ labels.Pairwise (· < ·)) (v : α)
    (hv : v ∈ labels) :
    ∃ w, labels[rankOf labels v]? = some w ∧ labelToIndex labels v = .ok (rankOf labels w) := by
  have hne : labels ≠ [] := by rintro rfl; simp at hv
  have hsu : isSortedAndUnique labels = false := by
    rw [Bool.eq_false_iff]; intro h; exact hs ((sortedUnique_iff labels).mp h)
  have hlt : rankOf labels v < labels.length := by
    rw [← uniq_length hnd]
    exact List.idxOf_lt_length_iff.mpr (Larch.AltCodes.mem_uniq.mpr hv)
  refine ⟨labels[rankOf labels v], List.getElem?_eq_getElem hlt, ?_⟩
  have hget : labels[rankOf labels v]? = some labels[rankOf labels v] := List.getElem?_eq_getElem hlt
  simp only [labelToIndex, hne, if_false, hsu, Bool.false_eq_true, uniq_length hnd, ne_eq, not_true_eq_false,
    digitize_uniq hv, List.getElem?_map, hget, Option.map_some]
  rfl

/-- **C38 (unsorted labels, partial).** For unique unsorted labels the result is right exactly when sorting the labels is a
self-inverse rearrangement at this value; otherwise it is wrong (see `C38_fails_three_cycle`). -/
theorem C38_unsorted_partial (labels : List α) (hnd : labels.Nodup) (hs : ¬ labels.Pairwise (· < ·)) (i : Nat) (v : α)
    (h : labels[i]? = some v) :
    labelToIndex labels v = .ok i ↔ labels[rankOf labels v]? = (Larch.AltCodes.uniq labels)[i]? := by
  have hv : v ∈ labels := List.mem_of_getElem? h
  obtain ⟨w, hw, hr⟩ := C38_unsorted_actual labels hnd hs v hv
  have hwm : w ∈ Larch.AltCodes.uniq labels := Larch.AltCodes.mem_uniq.mpr (List.mem_of_getElem? hw)
  have hwl := List.idxOf_lt_length_iff.mpr hwm
  rw [hr, hw]
  constructor
  · intro he
    have he' : rankOf labels w = i := Except.ok.inj he
    rw [← he']
    unfold rankOf
    rw [List.getElem?_eq_getElem hwl]; simp
  · intro he
    congr 1
    have hi := (List.getElem?_eq_some_iff.mp he.symm)
    obtain ⟨hil, hie⟩ := hi
    unfold rankOf
    rw [← hie]
    exact List.Nodup.idxOf_getElem (Larch.AltCodes.uniq_nodup labels) i hil

/-- **C38 (duplicates).** Labels that are not unique are refused (with a NameError from the error message itself). -/
theorem C38_duplicates (labels : List α) (hnd : ¬ labels.Nodup) (v : α) :
    labelToIndex labels v = .error "NameError" := by
  have hne : labels ≠ [] := by rintro rfl; exact hnd List.nodup_nil
  have hsu : isSortedAndUnique labels = false := by
    rw [Bool.eq_false_iff]; intro h
    exact hnd (((sortedUnique_iff labels).mp h).imp (fun h => ne_of_lt h))
  simp [labelToIndex, hne, hsu, uniq_length_ne hnd]

/-- **C51.** `labels_to_unique_ids`: the distinct labels come back in order, and each id points at its own label, so equal ids
mean equal labels and the ids are `lowest, …, lowest + (number of distinct labels) - 1`. -/
theorem C51_unique_ids (labels : List α) (lowest : Nat) :
    (labelsToUniqueIds labels lowest).1.Pairwise (· < ·) ∧
    (∀ v, v ∈ (labelsToUniqueIds labels lowest).1 ↔ v ∈ labels) ∧
    (labelsToUniqueIds labels lowest).2.length = labels.length ∧
    (∀ (i : Nat) (v : α), labels[i]? = some v → ∃ k : Nat, (labelsToUniqueIds labels lowest).2[i]? = some (lowest + k) ∧
      (labelsToUniqueIds labels lowest).1[k]? = some v) := by
  refine ⟨uniq_sorted labels, fun v => Larch.AltCodes.mem_uniq, by simp [labelsToUniqueIds], ?_⟩
  intro i v hv
  have hm : v ∈ Larch.AltCodes.uniq labels := Larch.AltCodes.mem_uniq.mpr (List.mem_of_getElem? hv)
  have hl := List.idxOf_lt_length_iff.mpr hm
  refine ⟨(Larch.AltCodes.uniq labels).idxOf v, ?_, ?_⟩
  · simp only [labelsToUniqueIds, List.getElem?_map, hv, Option.map_some]
    rw [Nat.add_comm]
  · show (Larch.AltCodes.uniq labels)[_]? = some v
    rw [List.getElem?_eq_getElem hl]; simp

end labels

example : labelsToUniqueIds [30, 10, 30, 20] 1 = ([10, 20, 30], [3, 1, 3, 2]) := by decide

/-- **C38 violated (unsorted labels).** Labels `[2, 3, 1]`: looking up 2, which is at position 0, returns 2. -/
theorem C38_fails_three_cycle :
    ([2, 3, 1] : List Nat)[0]? = some 2 ∧ labelToIndex [2, 3, 1] 2 = .ok 2 ∧ labelToIndex [2, 3, 1] 1 = .ok 1 := by
  decide

/-! ## C52: "lossless" integer conversion -/

/-- **C52 violated.** Whatever the platform's conversion to a 32-bit integer does, whole numbers outside the 32-bit range pass
the "lossless" test and are converted to something else. -/
theorem C52_fails_out_of_range (cast : ℝ → Int) (hcast : ∀ x, -2 ^ 31 ≤ cast x ∧ cast x < 2 ^ 31) :
    ∃ y, convertIfLossless cast [(2 ^ 31 : ℝ)] = some [y] ∧ (y : ℝ) ≠ 2 ^ 31 := by
  refine ⟨cast (2 ^ 31), ?_, ?_⟩
  · unfold convertIfLossless
    rw [if_pos]
    · simp
    · intro x hx
      simp at hx
      exact ⟨2 ^ 31, by rw [hx]; norm_num⟩
  · intro h
    have h2 := (hcast (2 ^ 31)).2
    have : (cast (2 ^ 31) : ℝ) < 2 ^ 31 := by exact_mod_cast h2
    linarith

/-- **C52 (in range).** For whole numbers within the 32-bit range, with a conversion that is exact there, nothing is lost; and
arrays with a fractional value are left alone. -/
theorem C52_lossless_partial (cast : ℝ → Int) (hexact : ∀ k : Int, -2 ^ 31 ≤ k → k < 2 ^ 31 → cast k = k) (arr : List ℝ) :
    (∀ ys, convertIfLossless cast arr = some ys → (∀ x ∈ arr, -2 ^ 31 ≤ x ∧ x < 2 ^ 31) →
      ys.map (Int.cast : Int → ℝ) = arr) ∧
    ((∃ x ∈ arr, ∀ k : Int, x ≠ k) → convertIfLossless cast arr = none) := by
  constructor
  · intro ys h hr
    unfold convertIfLossless at h
    split at h
    · next hall =>
      have := Option.some.inj h
      rw [← this, List.map_map]
      conv_rhs => rw [← List.map_id arr]
      apply List.map_congr_left
      intro x hx
      obtain ⟨k, rfl⟩ := hall x hx
      have hb := hr _ hx
      have h1 : -2 ^ 31 ≤ k := by exact_mod_cast hb.1
      have h2 : k < 2 ^ 31 := by exact_mod_cast hb.2
      simp [hexact k h1 h2]
    · simp at h
  · rintro ⟨x, hx, hk⟩
    unfold convertIfLossless
    rw [if_neg]
    intro hall
    obtain ⟨k, he⟩ := hall x hx
    exact hk k he

/-! ## C45: one-hot -/

/-- **C45 (one-hot rows).** The row of a value that occurs has a single 1, in the column of that value, and zeros elsewhere. -/
theorem C45_one_hot {α : Type} [LinearOrder α] (fmt : α → String) (arr : List α) (v : α) (hv : v ∈ arr) :
    (oneHotRow arr v).length = (oneHotColumns fmt arr).length ∧
    ∃ j, (oneHotColumns fmt arr)[j]? = some (fmt v) ∧
      ∀ i, i < (oneHotRow arr v).length → (oneHotRow arr v)[i]? = some (if i = j then 1 else 0) := by
  have hm : v ∈ Larch.AltCodes.uniq arr := Larch.AltCodes.mem_uniq.mpr hv
  have hl := List.idxOf_lt_length_iff.mpr hm
  refine ⟨by simp [oneHotRow, oneHotColumns], (Larch.AltCodes.uniq arr).idxOf v, ?_, ?_⟩
  · simp [oneHotColumns, List.getElem?_eq_getElem hl]
  · intro i hi
    have hi' : i < (Larch.AltCodes.uniq arr).length := by simpa [oneHotRow] using hi
    simp [oneHotRow, List.getElem?_range hi']

theorem compress_fold (cols : List String) (k : Nat) (f : Nat → Nat) (r : Option String)
    (hf : ∀ i, i < cols.length → f (k + i) ≠ 1) :
    (cols.zip ((List.range' k cols.length).map f)).foldl (fun r c => if c.2 = 1 then some c.1 else r) r = r := by
  induction cols generalizing k with
  | nil => rfl
  | cons c cols ih =>
    simp only [List.length_cons, List.range'_succ, List.map_cons, List.zip_cons_cons, List.foldl_cons]
    rw [if_neg (by simpa using hf 0 (by simp))]
    exact ih (k + 1) (fun i hi => by
      have := hf (i + 1) (by simp; omega)
      rwa [show k + 1 + i = k + (i + 1) by omega])

theorem compress_one (cols : List String) : ∀ (k j : Nat) (r : Option String) (c : String), cols[j]? = some c →
    (cols.zip ((List.range' k cols.length).map (fun i => if i = k + j then 1 else 0))).foldl
      (fun r c => if c.2 = 1 then some c.1 else r) r = some c := by
  induction cols with
  | nil => intro k j r c h; simp at h
  | cons c0 cols ih =>
    intro k j r c h
    simp only [List.length_cons, List.range'_succ, List.map_cons, List.zip_cons_cons, List.foldl_cons]
    cases j with
    | zero =>
      simp only [List.getElem?_cons_zero, Option.some.injEq] at h
      subst h
      simp only [Nat.add_zero, if_true]
      exact compress_fold cols (k + 1) (fun i => if i = k then 1 else 0) (some c0)
        (fun i _ => by simp; omega)
    | succ j =>
      have h0 : ¬ k = k + (j + 1) := by omega
      simp only [h0, if_false]
      have := ih (k + 1) j r c (by simpa using h)
      simp only [Nat.zero_ne_one, if_false]
      convert this using 4
      funext i
      congr 1
      simp only [eq_iff_iff]
      omega

/-- **C45 (round trip).** Compressing the expanded row gives back the label of the row's category; if formatting distinguishes
the categories, rows of different categories get different results. -/
theorem C45_round_trip {α : Type} [LinearOrder α] (fmt : α → String) (arr : List α) (v : α) (hv : v ∈ arr) :
    compressRow (oneHotColumns fmt arr) (oneHotRow arr v) = some (fmt v) ∧
    (Function.Injective fmt → ∀ w ∈ arr, compressRow (oneHotColumns fmt arr) (oneHotRow arr v) =
      compressRow (oneHotColumns fmt arr) (oneHotRow arr w) → v = w) := by
  have key : ∀ v ∈ arr, compressRow (oneHotColumns fmt arr) (oneHotRow arr v) = some (fmt v) := by
    intro v hv
    have hm : v ∈ Larch.AltCodes.uniq arr := Larch.AltCodes.mem_uniq.mpr hv
    have hl := List.idxOf_lt_length_iff.mpr hm
    have := compress_one (oneHotColumns fmt arr) 0 ((Larch.AltCodes.uniq arr).idxOf v) none (fmt v)
      (by simp [oneHotColumns, List.getElem?_eq_getElem hl])
    simp only [Nat.zero_add] at this
    unfold compressRow oneHotRow
    rw [List.range_eq_range']
    simpa [oneHotColumns] using this
  refine ⟨key v hv, fun hinj w hw he => ?_⟩
  rw [key v hv, key w hw] at he
  exact hinj (Option.some.inj he)

example : compressRow (oneHotColumns (fun n : Nat => s!"x=={n}") [3, 1, 3, 2]) (oneHotRow [3, 1, 3, 2] 2) =
    some "x==2" := (C45_round_trip _ [3, 1, 3, 2] 2 (by decide)).1

/-! ## C50: ratio_min -/

theorem foldl_min_le (l : List ℝ) : ∀ a, l.foldl min a ≤ a ∧ (∀ x ∈ l, l.foldl min a ≤ x) ∧
    (l.foldl min a = a ∨ l.foldl min a ∈ l) := by
  induction l with
  | nil => intro a; simp
  | cons b l ih =>
    intro a
    obtain ⟨h1, h2, h3⟩ := ih (min a b)
    rw [List.foldl_cons]
    refine ⟨le_trans h1 (min_le_left _ _), ?_, ?_⟩
    · intro x hx
      rcases List.mem_cons.mp hx with rfl | hx
      · exact le_trans h1 (min_le_right _ _)
      · exact h2 x hx
    · rcases h3 with h3 | h3
      · rcases min_choice a b with h | h
        · left; rw [h3, h]
        · right; rw [h3, h]; simp
      · right; exact List.mem_cons_of_mem _ h3

/-- **C50.** `ratio_min` divides every row by the minimum of its own case: the result times that minimum is the original value,
and for positive data every ratio is at least 1. -/
theorem C50_ratio_min (rows : List (Nat × ℝ)) (i : Nat) (r : Nat × ℝ) (h : rows[i]? = some r) :
    ∃ m y, (ratioMin rows)[i]? = some y ∧ (∃ q ∈ rows, q.1 = r.1 ∧ q.2 = m) ∧ (∀ q ∈ rows, q.1 = r.1 → m ≤ q.2) ∧
      (m ≠ 0 → y * m = r.2) ∧ (m = 0 → y = r.2) ∧
      ((∀ q ∈ rows, 0 < q.2) → 1 ≤ y) := by
  have hr : r ∈ rows := List.mem_of_getElem? h
  set m := ((rows.filter (fun q => q.1 = r.1)).map Prod.snd).foldl min r.2 with hm
  obtain ⟨h1, h2, h3⟩ := foldl_min_le ((rows.filter (fun q => q.1 = r.1)).map Prod.snd) r.2
  have hall : ∀ q ∈ rows, q.1 = r.1 → m ≤ q.2 := by
    intro q hq hqr
    exact h2 q.2 (List.mem_map.mpr ⟨q, List.mem_filter.mpr ⟨hq, by simpa using hqr⟩, rfl⟩)
  have hex : ∃ q ∈ rows, q.1 = r.1 ∧ q.2 = m := by
    rcases h3 with h3 | h3
    · exact ⟨r, hr, rfl, h3.symm⟩
    · obtain ⟨q, hq, hqe⟩ := List.mem_map.mp h3
      obtain ⟨hq1, hq2⟩ := List.mem_filter.mp hq
      exact ⟨q, hq1, by simpa using hq2, hqe⟩
  refine ⟨m, r.2 / (if m = 0 then 1 else m), by simp [ratioMin, List.getElem?_map, h, hm], hex, hall, ?_, ?_, ?_⟩
  · intro hm0
    rw [if_neg hm0]; field_simp
  · intro hm0
    rw [if_pos hm0]; simp
  · intro hpos
    obtain ⟨q, hq, _, hqm⟩ := hex
    have hmp : 0 < m := by rw [← hqm]; exact hpos q hq
    rw [if_neg hmp.ne', one_le_div hmp]
    exact hall r hr rfl

example : (ratioMin [(0, 4), (1, 3), (0, 2)])[0]? = some 2 := by
  simp [ratioMin]; norm_num

/-! ## C41: ranks -/

/-- Specification of `argsort`: a rearrangement of the positions `0 … n-1` in non-decreasing order of value (ties in any
order). -/
def IsArgsort (n : Nat) (arr : Nat → ℝ) (order : List Nat) : Prop :=
  order.Perm (List.range n) ∧ order.Pairwise (fun i j => arr i ≤ arr j)

/-- **C41 (ranks).** For any argsort result the ranks of a row are the numbers `1 … n`, each once, and a larger probability has a
smaller rank. -/
theorem C41_ranks (n : Nat) (arr : Nat → ℝ) (order : List Nat) (h : IsArgsort n arr order) :
    ((List.range n).map (rankRow order)).Perm (List.range' 1 n) ∧
    ∀ j k, j < n → k < n → arr j < arr k → rankRow order k < rankRow order j := by
  obtain ⟨hp, hs⟩ := h
  have hnd : order.Nodup := hp.nodup_iff.mpr List.nodup_range
  have hlen : order.length = n := by rw [hp.length_eq]; simp
  have hmem : ∀ j, j < n → j ∈ order := fun j hj => hp.mem_iff.mpr (List.mem_range.mpr hj)
  constructor
  · have e1 : ((List.range n).map (rankRow order)).Perm (order.map (rankRow order)) := (hp.symm.map _)
    refine e1.trans ?_
    have e2 : order.map (rankRow order) = (List.range n).map (fun i => n - i) := by
      apply List.ext_getElem
      · simp [hlen]
      · intro i h1 h2
        simp only [List.getElem_map, List.getElem_range, rankRow, hlen]
        rw [List.Nodup.idxOf_getElem hnd]
    rw [e2]
    have e3 : (List.range n).map (fun i => n - i) = (List.range' 1 n).reverse := by
      apply List.ext_getElem
      · simp
      · intro i h1 h2
        simp at h1
        simp; omega
    rw [e3]
    exact List.reverse_perm _
  · intro j k hj hk hjk
    have hjm := List.idxOf_lt_length_iff.mpr (hmem j hj)
    have hkm := List.idxOf_lt_length_iff.mpr (hmem k hk)
    unfold rankRow
    have hlt : order.idxOf j < order.idxOf k := by
      by_contra hc
      rcases Nat.lt_or_ge (order.idxOf k) (order.idxOf j) with hlt | hge
      · have := List.pairwise_iff_getElem.mp hs _ _ hkm hjm hlt
        simp at this
        linarith
      · have he : order.idxOf k = order.idxOf j := by omega
        have h1 : order[order.idxOf k] = k := List.getElem_idxOf hkm
        have h2 : order[order.idxOf j] = j := List.getElem_idxOf hjm
        have : k = j := by
          rw [← h1, ← h2]; congr 1
        subst this
        exact lt_irrefl _ hjk
    omega

example : IsArgsort 3 (fun i => if i = 0 then 0.5 else if i = 1 then 0.2 else 0.3) [1, 2, 0] ∧
    (List.range 3).map (rankRow [1, 2, 0]) = [1, 3, 2] := by
  refine ⟨⟨by decide, ?_⟩, by decide⟩
  simp; norm_num

theorem topK_num_le (cells : List (Nat × ℝ)) (hc : ∀ c ∈ cells, 0 ≤ c.2) (k k' : Nat) (hkk : k ≤ k') :
    0 ≤ ((cells.filter (fun c => decide (c.2 > 0))).map (fun c => (if c.1 ≤ k then (1 : ℝ) else 0) * c.2)).sum ∧
    ((cells.filter (fun c => decide (c.2 > 0))).map (fun c => (if c.1 ≤ k then (1 : ℝ) else 0) * c.2)).sum ≤
      ((cells.filter (fun c => decide (c.2 > 0))).map (fun c => (if c.1 ≤ k' then (1 : ℝ) else 0) * c.2)).sum ∧
    ((cells.filter (fun c => decide (c.2 > 0))).map (fun c => (if c.1 ≤ k' then (1 : ℝ) else 0) * c.2)).sum ≤
      (cells.map Prod.snd).sum ∧
    ((∀ c ∈ cells, c.2 > 0 → c.1 ≤ k) →
      ((cells.filter (fun c => decide (c.2 > 0))).map (fun c => (if c.1 ≤ k then (1 : ℝ) else 0) * c.2)).sum =
        (cells.map Prod.snd).sum) := by
  induction cells with
  | nil => simp
  | cons c cells ih =>
    obtain ⟨i1, i2, i3, i4⟩ := ih (fun d hd => hc d (List.mem_cons_of_mem _ hd))
    have hc0 := hc c (by simp)
    rw [List.filter_cons]
    by_cases hpos : c.2 > 0
    · simp only [hpos, decide_true, if_true, List.map_cons, List.sum_cons]
      refine ⟨?_, ?_, ?_, ?_⟩
      · have : 0 ≤ (if c.1 ≤ k then (1 : ℝ) else 0) * c.2 := by split <;> linarith
        linarith
      · have : (if c.1 ≤ k then (1 : ℝ) else 0) * c.2 ≤ (if c.1 ≤ k' then (1 : ℝ) else 0) * c.2 := by
          by_cases h1 : c.1 ≤ k
          · have h2 : c.1 ≤ k' := le_trans h1 hkk
            simp [h1, h2]
          · simp only [h1, if_false]
            split <;> linarith
        linarith
      · have : (if c.1 ≤ k' then (1 : ℝ) else 0) * c.2 ≤ c.2 := by split <;> linarith
        linarith
      · intro hall
        rw [i4 (fun d hd => hall d (List.mem_cons_of_mem _ hd)), if_pos (hall c (by simp) hpos)]
        ring
    · have h0 : c.2 = 0 := le_antisymm (not_lt.mp hpos) hc0
      rw [if_neg (by simpa using hpos)]
      simp only [List.map_cons, List.sum_cons, h0, zero_add]
      exact ⟨i1, i2, i3, fun hall => i4 (fun d hd => hall d (List.mem_cons_of_mem _ hd))⟩

/-- **C41 (top-k).** For non-negative choices with positive total, accuracy is in `[0, 1]`, does not decrease with `k`, and is 1
once `k` reaches the largest rank of a chosen alternative. -/
theorem C41_top_k (cells : List (Nat × ℝ)) (hc : ∀ c ∈ cells, 0 ≤ c.2) (htot : 0 < (cells.map Prod.snd).sum) :
    (∀ k, 0 ≤ topK cells k ∧ topK cells k ≤ 1) ∧ (∀ k k', k ≤ k' → topK cells k ≤ topK cells k') ∧
    (∀ n, (∀ c ∈ cells, c.2 > 0 → c.1 ≤ n) → topK cells n = 1) := by
  refine ⟨?_, ?_, ?_⟩
  · intro k
    obtain ⟨h1, _, h3, _⟩ := topK_num_le cells hc k k (le_refl _)
    unfold topK
    exact ⟨by convert div_nonneg h1 htot.le, by convert (div_le_one htot).mpr h3⟩
  · intro k k' hkk
    obtain ⟨_, h2, _, _⟩ := topK_num_le cells hc k k' hkk
    unfold topK
    convert div_le_div_of_nonneg_right h2 htot.le
  · intro n hn
    obtain ⟨_, _, _, h4⟩ := topK_num_le cells hc n n (le_refl _)
    unfold topK
    rw [div_eq_one_iff_eq htot.ne']
    convert h4 hn

example : (0 : ℝ) < (([(1, 1), (2, 0), (2, 1), (1, 0)] : List (Nat × ℝ)).map Prod.snd).sum := by norm_num

end Larch.Props
