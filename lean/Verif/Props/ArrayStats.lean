import Verif.Model.ArrayStats
import Mathlib.Data.List.Perm.Basic
import Mathlib.Data.List.Count
import Mathlib.Tactic.Linarith
import Mathlib.Tactic.NormNum
import Mathlib.Tactic.FieldSimp
import Mathlib.Algebra.Order.BigOperators.Group.List

/-!
# C146, C147: statistics of a column of data
-/

namespace Larch.Props

open Larch Larch.ArrayStats

/-! ## Specification -/

/-- The numbers describe the values `xs`: least and greatest value, a number that halves them, mean, and root of the mean squared distance from it. -/
structure SumsUp (xs : List ℝ) (mn mx md mean sd : ℝ) : Prop where
  least : mn ∈ xs ∧ ∀ x ∈ xs, mn ≤ x
  greatest : mx ∈ xs ∧ ∀ x ∈ xs, x ≤ mx
  halves : xs.length ≤ 2 * xs.countP (fun x => decide (x ≤ md)) ∧ xs.length ≤ 2 * xs.countP (fun x => decide (md ≤ x))
  average : mean * xs.length = xs.sum
  spread : 0 ≤ sd ∧ sd ^ 2 * xs.length = (xs.map (fun x => (x - mean) ^ 2)).sum

/-! ## Lemmas -/

theorem as_min (xs : List ℝ) (hne : xs ≠ []) : ∃ m, minOf xs = some m ∧ m ∈ xs ∧ ∀ x ∈ xs, m ≤ x := by
  have key : ∀ (l : List ℝ) (y : ℝ), ∃ m, l.foldl (fun acc x => some (match acc with | none => x | some y => min y x)) (some y) = some m ∧ m ∈ y :: l ∧
      ∀ x ∈ y :: l, m ≤ x := by
    intro l
    induction l with
    | nil => intro y; exact ⟨y, rfl, by simp, by simp⟩
    | cons a t ih =>
      intro y
      obtain ⟨m, h1, h2, h3⟩ := ih (min y a)
      refine ⟨m, h1, ?_, ?_⟩
      · rcases List.mem_cons.mp h2 with h | h
        · rcases min_choice y a with e | e <;> simp [h, e]
        · simp [h]
      · have h4 := h3 (min y a) (by simp)
        intro x hx
        rcases List.mem_cons.mp hx with rfl | hx
        · exact le_trans h4 (min_le_left _ _)
        · rcases List.mem_cons.mp hx with rfl | hx
          · exact le_trans h4 (min_le_right _ _)
          · exact h3 x (by simp [hx])
  cases xs with
  | nil => exact absurd rfl hne
  | cons a t => exact key t a

theorem as_max (xs : List ℝ) (hne : xs ≠ []) : ∃ m, maxOf xs = some m ∧ m ∈ xs ∧ ∀ x ∈ xs, x ≤ m := by
  have key : ∀ (l : List ℝ) (y : ℝ), ∃ m, l.foldl (fun acc x => some (match acc with | none => x | some y => max y x)) (some y) = some m ∧ m ∈ y :: l ∧
      ∀ x ∈ y :: l, x ≤ m := by
    intro l
    induction l with
    | nil => intro y; exact ⟨y, rfl, by simp, by simp⟩
    | cons a t ih =>
      intro y
      obtain ⟨m, h1, h2, h3⟩ := ih (max y a)
      refine ⟨m, h1, ?_, ?_⟩
      · rcases List.mem_cons.mp h2 with h | h
        · rcases max_choice y a with e | e <;> simp [h, e]
        · simp [h]
      · have h4 := h3 (max y a) (by simp)
        intro x hx
        rcases List.mem_cons.mp hx with rfl | hx
        · exact le_trans (le_max_left _ _) h4
        · rcases List.mem_cons.mp hx with rfl | hx
          · exact le_trans (le_max_right _ _) h4
          · exact h3 x (by simp [hx])
  cases xs with
  | nil => exact absurd rfl hne
  | cons a t => exact key t a

theorem as_mean (xs : List ℝ) (hne : xs ≠ []) : ∃ m, ArrayStats.mean xs = some m ∧ m * xs.length = xs.sum := by
  refine ⟨xs.sum / xs.length, by unfold ArrayStats.mean; rw [if_neg hne], ?_⟩
  have : (xs.length : ℝ) ≠ 0 := by
    rw [Nat.cast_ne_zero, Ne, List.length_eq_zero_iff]; exact hne
  field_simp

theorem as_stdev (xs : List ℝ) (hne : xs ≠ []) (m : ℝ) (hm : ArrayStats.mean xs = some m) :
    ∃ s, ArrayStats.stdev xs = some s ∧ 0 ≤ s ∧ s ^ 2 * xs.length = (xs.map (fun x => (x - m) ^ 2)).sum := by
  refine ⟨Real.sqrt ((xs.map (fun x => (x - m) ^ 2)).sum / xs.length), by unfold ArrayStats.stdev; rw [hm]; rfl, Real.sqrt_nonneg _, ?_⟩
  have h0 : (xs.length : ℝ) ≠ 0 := by
    rw [Nat.cast_ne_zero, Ne, List.length_eq_zero_iff]; exact hne
  have hs : 0 ≤ (xs.map (fun x => (x - m) ^ 2)).sum := List.sum_nonneg (by
    intro y hy
    obtain ⟨x, _, rfl⟩ := List.mem_map.mp hy
    positivity)
  rw [Real.sq_sqrt (div_nonneg hs (Nat.cast_nonneg _))]
  field_simp

theorem as_count_le (s : List ℝ) (hs : s.Pairwise (· ≤ ·)) (i : Nat) (v m : ℝ) (hi : s[i]? = some v) (hv : v ≤ m) :
    i + 1 ≤ s.countP (fun x => decide (x ≤ m)) := by
  have h1 : (s.take (i + 1)).countP (fun x => decide (x ≤ m)) = (s.take (i + 1)).length := by
    rw [List.countP_eq_length]
    intro x hx
    rw [decide_eq_true_iff]
    obtain ⟨j, hj⟩ := List.mem_iff_getElem?.mp hx
    rw [List.getElem?_take] at hj
    split at hj
    next hlt =>
      refine le_trans ?_ hv
      rcases Nat.lt_or_ge j i with h | h
      · obtain ⟨hj1, e1⟩ := List.getElem?_eq_some_iff.mp hj
        obtain ⟨hi1, e2⟩ := List.getElem?_eq_some_iff.mp hi
        rw [← e1, ← e2]
        exact List.pairwise_iff_getElem.mp hs j i hj1 hi1 h
      · have : j = i := by omega
        subst this
        rw [hi, Option.some.injEq] at hj
        rw [hj]
    next => cases hj
  have h2 : (s.take (i + 1)).countP (fun x => decide (x ≤ m)) ≤ s.countP (fun x => decide (x ≤ m)) := (List.take_sublist _ _).countP_le
  obtain ⟨hi1, _⟩ := List.getElem?_eq_some_iff.mp hi
  rw [h1, List.length_take] at h2
  omega

theorem as_count_ge (s : List ℝ) (hs : s.Pairwise (· ≤ ·)) (i : Nat) (v m : ℝ) (hi : s[i]? = some v) (hv : m ≤ v) :
    s.length - i ≤ s.countP (fun x => decide (m ≤ x)) := by
  have h1 : (s.drop i).countP (fun x => decide (m ≤ x)) = (s.drop i).length := by
    rw [List.countP_eq_length]
    intro x hx
    rw [decide_eq_true_iff]
    obtain ⟨j, hj⟩ := List.mem_iff_getElem?.mp hx
    rw [List.getElem?_drop] at hj
    refine le_trans hv ?_
    obtain ⟨hj1, e1⟩ := List.getElem?_eq_some_iff.mp hj
    obtain ⟨hi1, e2⟩ := List.getElem?_eq_some_iff.mp hi
    rw [← e1, ← e2]
    rcases Nat.eq_zero_or_pos j with h | h
    · subst h; simp
    · exact List.pairwise_iff_getElem.mp hs i (i + j) hi1 hj1 (by omega)
  have h2 : (s.drop i).countP (fun x => decide (m ≤ x)) ≤ s.countP (fun x => decide (m ≤ x)) := (List.drop_sublist _ _).countP_le
  rw [h1, List.length_drop] at h2
  exact h2

theorem as_median (xs : List ℝ) (hne : xs ≠ []) : ∃ m, median xs = some m ∧ xs.length ≤ 2 * xs.countP (fun x => decide (x ≤ m)) ∧
    xs.length ≤ 2 * xs.countP (fun x => decide (m ≤ x)) := by
  have hp := List.perm_insertionSort (· ≤ ·) xs
  have hs := List.pairwise_insertionSort (· ≤ ·) xs
  have hl : (xs.insertionSort (· ≤ ·)).length = xs.length := hp.length_eq
  have hpos : 0 < xs.length := List.length_pos_iff.mpr hne
  have hget : ∀ i : Nat, i < xs.length → ∃ v, (xs.insertionSort (· ≤ ·))[i]? = some v := fun i hi =>
    ⟨_, List.getElem?_eq_getElem (by omega)⟩
  unfold median
  simp only [if_neg hne]
  by_cases hodd : xs.length % 2 = 1
  · rw [if_pos hodd]
    obtain ⟨v, hv⟩ := hget (xs.length / 2) (by omega)
    refine ⟨v, hv, ?_, ?_⟩
    · rw [← hp.countP_eq]
      have := as_count_le _ hs _ v v hv le_rfl
      omega
    · rw [← hp.countP_eq]
      have := as_count_ge _ hs _ v v hv le_rfl
      omega
  · rw [if_neg hodd]
    obtain ⟨a, ha⟩ := hget (xs.length / 2 - 1) (by omega)
    obtain ⟨b, hb⟩ := hget (xs.length / 2) (by omega)
    have hab : a ≤ b := by
      obtain ⟨h1, e1⟩ := List.getElem?_eq_some_iff.mp ha
      obtain ⟨h2, e2⟩ := List.getElem?_eq_some_iff.mp hb
      rw [← e1, ← e2]
      exact List.pairwise_iff_getElem.mp hs _ _ h1 h2 (by omega)
    refine ⟨(a + b) / 2, by rw [ha, hb]; rfl, ?_, ?_⟩
    · rw [← hp.countP_eq]
      have := as_count_le _ hs _ a ((a + b) / 2) ha (by linarith)
      omega
    · rw [← hp.countP_eq]
      have := as_count_ge _ hs _ b ((a + b) / 2) hb (by linarith)
      omega

theorem as_describes (xs : List ℝ) (hne : xs ≠ []) : ∃ mn mx md m sd, minOf xs = some mn ∧ maxOf xs = some mx ∧ median xs = some md ∧
    ArrayStats.mean xs = some m ∧ ArrayStats.stdev xs = some sd ∧ SumsUp xs mn mx md m sd := by
  obtain ⟨mn, h1, h2⟩ := as_min xs hne
  obtain ⟨mx, h3, h4⟩ := as_max xs hne
  obtain ⟨md, h5, h6⟩ := as_median xs hne
  obtain ⟨m, h7, h8⟩ := as_mean xs hne
  obtain ⟨sd, h9, h10⟩ := as_stdev xs hne m h7
  exact ⟨mn, mx, md, m, sd, h1, h3, h5, h7, h9, ⟨h2, h4, h6, h8, h10⟩⟩

theorem as_signs (xs : List ℝ) : xs.countP (fun x => decide (x = 0)) + xs.countP (fun x => decide (0 < x)) + xs.countP (fun x => decide (x < 0)) = xs.length := by
  induction xs with
  | nil => rfl
  | cons a t ih =>
    simp only [List.countP_cons, List.length_cons]
    rcases lt_trichotomy a 0 with h | h | h
    · have h1 : ¬ a = 0 := ne_of_lt h
      have h2 : ¬ 0 < a := not_lt.mpr h.le
      simp [h, h1, h2]; omega
    · simp [h]; omega
    · have h1 : ¬ a = 0 := ne_of_gt h
      have h2 : ¬ a < 0 := not_lt.mpr h.le
      simp [h, h1, h2]; omega

/-! ## Statistics of an array -/

/-- What the statistics `s` must be for values `xs`. -/
structure StatsFor (s : Stats) (xs : List ℝ) : Prop where
  n : s.n = xs.length
  all : xs ≠ [] → ∃ mn mx md m sd, s.minimum = some mn ∧ s.maximum = some mx ∧ s.median = some md ∧ s.mean = some m ∧ s.stdev = some sd ∧ SumsUp xs mn mx md m sd
  zeros : s.zeros = xs.countP (fun x => decide (x = 0))
  positives : s.positives = xs.countP (fun x => decide (0 < x))
  negatives : s.negatives = xs.countP (fun x => decide (x < 0))
  signs : s.zeros + s.positives + s.negatives = s.n
  nonzero : ∀ ys, ys = xs.filter (fun x => decide (x ≠ 0)) → ys ≠ [] →
    ∃ mn mx m sd, s.nonzeroMinimum = some mn ∧ s.nonzeroMaximum = some mx ∧ s.nonzeroMean = some m ∧ s.nonzeroStdev = some sd ∧ ∃ md, SumsUp ys mn mx md m sd

theorem as_statsOf (xs : List ℝ) (nans infs : Nat) : StatsFor (statsOf xs.length xs nans infs) xs := by
  refine ⟨rfl, fun h => as_describes xs h, ?_, ?_, ?_, ?_, ?_⟩
  · simp only [statsOf, ← List.countP_eq_length_filter]
  · simp only [statsOf, ← List.countP_eq_length_filter]
  · simp only [statsOf, ← List.countP_eq_length_filter]
  · simp only [statsOf, ← List.countP_eq_length_filter]
    exact as_signs xs
  · intro ys hy hne
    obtain ⟨mn, mx, md, m, sd, h1, h2, h3, h4, h5, h6⟩ := as_describes ys hne
    subst hy
    exact ⟨mn, mx, m, sd, h1, h2, h4, h5, md, h6⟩

/-- **C146 (an array).** The statistics of an array are those of its finite values, and every entry counts as finite, missing or infinite. -/
theorem C146_array (a : List X) (xs : List ℝ) (hx : xs.map X.fin = a.filter (fun x => !(isNan x || isInf x))) :
    StatsFor (stats a) xs ∧ (stats a).n + (stats a).nans + (stats a).infs = a.length := by
  have hf : finites a = xs := by
    have h1 : ∀ b : List X, (finites b).map X.fin = b.filter (fun x => !(isNan x || isInf x)) := by
      intro b
      induction b with
      | nil => rfl
      | cons y t ih =>
        unfold finites at ih ⊢
        cases y <;> simp [List.filterMap_cons, isNan, isInf, finOf, ih]
    have h2 := (h1 a).trans hx.symm
    exact List.map_injective_iff.mpr (fun u v h => by injection h) h2
  refine ⟨by unfold stats; rw [hf]; exact as_statsOf _ _ _, ?_⟩
  unfold stats statsOf
  simp only
  clear hx hf
  induction a with
  | nil => rfl
  | cons y t ih =>
    unfold finites at ih ⊢
    cases y <;> simp [List.filter_cons, List.filterMap_cons, isNan, isInf, finOf] <;> omega

/-- **C146 (available values).** With an availability array of truth values, the statistics of finite data are those of the available
values. -/
theorem C146_available (a : List ℝ) (l : List Bool) (hl : l.length = a.length) :
    ∃ s, statsAvail a (.bools l) = some s ∧ StatsFor s (((a.zip l).filter (fun p => p.2)).map Prod.fst) := by
  have hc : ∀ (a : List ℝ) (l : List Bool), l.length = a.length → (l.filter id).length = (((a.zip l).filter (fun p => p.2)).map Prod.fst).length ∧
      ((a.zip (l.map (fun b => !b))).filter (fun p => !p.2)).map Prod.fst = ((a.zip l).filter (fun p => p.2)).map Prod.fst := by
    intro a
    induction a with
    | nil => intro l h; rw [List.length_nil, List.length_eq_zero_iff] at h; subst h; simp
    | cons x t ih =>
      intro l h
      cases l with
      | nil => simp at h
      | cons b l' =>
        obtain ⟨h1, h2⟩ := ih l' (by simpa using h)
        cases b <;> simp_all
  obtain ⟨h1, h2⟩ := hc a l hl
  unfold statsAvail
  rw [if_pos (by simpa [maskOf] using hl)]
  refine ⟨_, rfl, ?_⟩
  simp only [availCount, maskOf]
  rw [h2, h1]
  exact as_statsOf _ _ _

/-- **C146 fails (availability as numbers).** With an availability array of ones and zeros, like that of the data frames of a model, all values are masked: the number of values
is right, but there are no minimum, mean and deviation, and no zeros, positives and negatives. -/
theorem C146_fails_ints (a : List ℝ) (l : List Int) (hl : l.length = a.length) (h01 : ∀ k ∈ l, k = 0 ∨ k = 1) :
    ∃ s, statsAvail a (.ints l) = some s ∧ s.n = l.count 1 ∧ s.mean = none ∧ s.minimum = none ∧ s.stdev = none ∧ s.zeros = 0 ∧ s.positives = 0 ∧ s.negatives = 0 := by
  unfold statsAvail
  rw [if_pos (by simpa [maskOf] using hl)]
  refine ⟨_, rfl, ?_⟩
  have h0 : ((a.zip (maskOf (.ints l))).filter (fun p => !p.2)).map Prod.fst = [] := by
    rw [List.map_eq_nil_iff, List.filter_eq_nil_iff]
    intro p hp
    have := (List.of_mem_zip hp).2
    simp only [maskOf, List.mem_map] at this
    obtain ⟨k, hk, e⟩ := this
    rw [← e]
    rcases h01 k hk with rfl | rfl <;> simp
  have hn : availCount (.ints l) = l.count 1 := by
    simp only [availCount, ← List.countP_eq_length_filter, List.count]
    refine List.countP_congr (fun k hk => ?_)
    rcases h01 k hk with rfl | rfl <;> simp
  rw [h0]
  refine ⟨hn, ?_, ?_, ?_, ?_, ?_, ?_⟩
  · simp [statsOf, ArrayStats.mean]
  · simp [statsOf, minOf]
  · simp [statsOf, ArrayStats.stdev, ArrayStats.mean]
  all_goals simp [statsOf]

/-! ## Counts of values -/

/-- **C147 (counts).** `uniques` lists every value that occurs, in increasing order, with the number of times it occurs, and the number of missing values if there are any; the
counts add up to the number of entries. -/
theorem C147_counts {α : Type} [LinearOrder α] (s : List (Option α)) :
    (∃ vs : List α, vs.Pairwise (· < ·) ∧ (∀ v, v ∈ vs ↔ some v ∈ s) ∧ ∃ rest, ArrayStats.uniques s = vs.map (fun v => (some v, s.count (some v))) ++ rest ∧
      rest = if none ∈ s then [(none, s.count none)] else []) ∧
    ((ArrayStats.uniques s).map Prod.snd).sum = s.length := by
  have hcv : ∀ v, (s.filterMap (fun x => x)).count v = s.count (some v) := by
    intro v
    induction s with
    | nil => rfl
    | cons y t ih => cases y <;> simp [List.count_cons, ih]
  have hlen : s.length = (s.filterMap (fun x => x)).length + s.count none := by
    clear hcv
    induction s with
    | nil => rfl
    | cons y t ih =>
      cases y
      · simp; omega
      · simp; omega
  have hrest : (if s.length - (s.filterMap (fun x => x)).length = 0 then [] else [((none : Option α), s.length - (s.filterMap (fun x => x)).length)]) =
      if none ∈ s then [(none, s.count none)] else [] := by
    have e : s.length - (s.filterMap (fun x => x)).length = s.count none := by omega
    rw [e]
    by_cases h : none ∈ s
    · rw [if_pos h, if_neg (by rw [List.count_eq_zero]; simpa using h)]
    · rw [if_neg h, if_pos (by rw [List.count_eq_zero]; exact h)]
  refine ⟨⟨(s.filterMap (fun x => x)).dedup.insertionSort (· ≤ ·), ?_, ?_, _, ?_, hrest⟩, ?_⟩
  · have h1 := List.pairwise_insertionSort (· ≤ ·) (s.filterMap (fun x => x)).dedup
    have h2 : ((s.filterMap (fun x => x)).dedup.insertionSort (· ≤ ·)).Nodup := (List.perm_insertionSort _ _).nodup_iff.mpr (List.nodup_dedup _)
    refine (h1.and h2).imp ?_
    rintro a b ⟨hab, hne⟩
    exact lt_of_le_of_ne hab hne
  · intro v
    rw [List.mem_insertionSort, List.mem_dedup, List.mem_filterMap]
    simp
  · unfold ArrayStats.uniques
    simp only [hcv]
  · unfold ArrayStats.uniques
    simp only
    rw [List.map_append, List.sum_append, hrest, List.map_map]
    have h1 : ((((s.filterMap (fun x => x)).dedup.insertionSort (· ≤ ·)).map (Prod.snd ∘ fun v => (some v, (s.filterMap (fun x => x)).count v)))).sum = (s.filterMap (fun x => x)).length := by
      rw [((List.perm_insertionSort (· ≤ ·) _).map _).sum_eq]
      exact List.sum_map_count_dedup_eq_length _
    rw [h1]
    by_cases h : none ∈ s
    · rw [if_pos h]; simp; omega
    · rw [if_neg h]
      have := List.count_eq_zero.mpr h
      rw [List.map_nil, List.sum_nil]
      omega

/-- **C147 (inverse map).** `invmap` gives a key whose value is the one looked up, if there is one, and nothing otherwise; if values are different it inverts the
mapping. -/
theorem C147_invmap {α β : Type} [DecidableEq β] (m : List (α × β)) (v : β) :
    (∀ k, ArrayStats.invmap m v = some k → (k, v) ∈ m) ∧ (ArrayStats.invmap m v = none ↔ v ∉ m.map Prod.snd) ∧
    ((m.map Prod.snd).Nodup → ∀ k, (k, v) ∈ m → ArrayStats.invmap m v = some k) := by
  unfold ArrayStats.invmap
  have h1 : ∀ k, (m.reverse.find? (fun p => decide (p.2 = v))).map Prod.fst = some k → (k, v) ∈ m := by
    intro k h
    obtain ⟨p, hp, rfl⟩ := Option.map_eq_some_iff.mp h
    have h1 := List.mem_reverse.mp (List.mem_of_find?_eq_some hp)
    have h2 : p.2 = v := by simpa using List.find?_some hp
    rw [← h2]
    exact h1
  have h2 : (m.reverse.find? (fun p => decide (p.2 = v))).map Prod.fst = none ↔ v ∉ m.map Prod.snd := by
    rw [Option.map_eq_none_iff, List.find?_eq_none]
    simp only [List.mem_reverse, decide_eq_true_eq, List.mem_map, not_exists, not_and]
  refine ⟨h1, h2, fun hn k hk => ?_⟩
  cases hf : (m.reverse.find? (fun p => decide (p.2 = v))).map Prod.fst with
  | none => exact absurd (List.mem_map.mpr ⟨_, hk, rfl⟩) (h2.mp hf)
  | some j =>
    have := List.inj_on_of_nodup_map hn (h1 j hf) hk rfl
    cases this
    rfl

/-! ## Concrete cases -/

example : StatsFor (stats [.fin 3, .nan, .fin 0, .fin (-1), .pinf]) [3, 0, -1] ∧ (stats [.fin 3, .nan, .fin 0, .fin (-1), .pinf]).nans = 1 :=
  ⟨(C146_array _ [3, 0, -1] (by simp [isNan, isInf])).1, by simp [stats, statsOf, isNan, List.filter_cons]⟩

example : ∃ s, statsAvail [5, 6, 7] (.bools [true, false, true]) = some s ∧ s.n = 2 ∧ s.mean = some 6 := by
  obtain ⟨s, h1, h2⟩ := C146_available [5, 6, 7] [true, false, true] rfl
  refine ⟨s, h1, by simpa using h2.n, ?_⟩
  obtain ⟨_, _, _, m, _, _, _, _, hm, _, hd⟩ := h2.all (by simp)
  have := hd.average
  simp at this
  rw [hm]
  congr 1
  linarith

example : ArrayStats.uniques [some 4, none, some 2, some 4] = [(some 2, 1), (some 4, 2), ((none : Option Nat), 1)] := by decide +kernel

example : ArrayStats.invmap [("a", 1), ("b", 2)] 2 = some "b" := by decide

end Larch.Props
