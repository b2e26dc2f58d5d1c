import Verif.Model.SizeTerms
import Mathlib.Analysis.Complex.ExponentialBounds
import Mathlib.Tactic.Linarith
import Mathlib.Tactic.NormNum

/-!
# C140: the size terms of a location choice model are those of the size specification
-/

namespace Larch.Props

open Larch.SizeTerms

/-! ## Specification -/

/-- The size of a zone with land use `d` for segment `i`, as the size specification says. -/
noncomputable def specSize (S : SizeTerms.Spec) (i : String) (d : String → ℝ) : ℝ := (S.fields.map (fun q => S.val i q * d q)).sum

/-- A proper specification: unique labels, no negative values, and different coefficients have different names. -/
structure ProperSize (S : SizeTerms.Spec) : Prop where
  segs : S.segs.Nodup
  fields : S.fields.Nodup
  nonneg : ∀ i ∈ S.segs, ∀ q ∈ S.fields, 0 ≤ S.val i q
  names : ∀ i ∈ S.segs, ∀ j ∈ S.segs, ∀ p ∈ S.fields, ∀ q ∈ S.fields, i ++ "_" ++ p = j ++ "_" ++ q → i = j ∧ p = q

/-- The settings number every segment of the specification, with different numbers. -/
structure ProperIds (S : SizeTerms.Spec) (ids : List (String × Int)) : Prop where
  nums : (ids.map Prod.snd).Nodup
  names : (ids.map Prod.fst).Nodup
  all : ∀ i ∈ S.segs, i ∈ ids.map Prod.fst

/-! ## Lemmas -/

theorem sz_kept_sub {S : SizeTerms.Spec} {q : String} (h : q ∈ kept S) : q ∈ S.fields := (List.mem_filter.mp h).1

theorem sz_pos_kept {S : SizeTerms.Spec} {i q : String} (hi : i ∈ S.segs) (hq : q ∈ S.fields) (h : 0 < S.val i q) : q ∈ kept S := by
  unfold kept
  rw [List.mem_filter]
  exact ⟨hq, by simpa using ⟨i, hi, h⟩⟩

theorem sz_stacked {S : SizeTerms.Spec} {r : String × String × ℝ} :
    r ∈ stacked S ↔ r.1 ∈ S.segs ∧ r.2.1 ∈ S.fields ∧ r.2.2 = S.val r.1 r.2.1 ∧ 0 < r.2.2 := by
  unfold stacked
  simp only [List.mem_filter, List.mem_flatMap, List.mem_map, decide_eq_true_iff]
  constructor
  · rintro ⟨⟨i, hi, q, hq, rfl⟩, h⟩
    exact ⟨hi, sz_kept_sub hq, rfl, h⟩
  · rintro ⟨hi, hq, hv, h⟩
    obtain ⟨i, q, v⟩ := r
    simp only at hi hq hv h
    subst hv
    exact ⟨⟨i, hi, q, sz_pos_kept hi hq h, rfl⟩, h⟩

theorem sz_applied {S : SizeTerms.Spec} (h : ProperSize S) {i q : String} (hi : i ∈ S.segs) (hq : q ∈ S.fields) (hv : 0 < S.val i q) :
    applied S (label i q) = some ⟨label i q, Real.log (S.val i q), (heldLabels S).contains (label i q), -6, 6⟩ := by
  have hmem : (⟨label i q, Real.log (S.val i q), (heldLabels S).contains (label i q), -6, 6⟩ : Coef) ∈ (coefs S).reverse := by
    rw [List.mem_reverse]
    exact List.mem_map.mpr ⟨(i, q, S.val i q), sz_stacked.mpr ⟨hi, hq, rfl, hv⟩, rfl⟩
  have huniq : ∀ c ∈ (coefs S).reverse, c.name = label i q → c = ⟨label i q, Real.log (S.val i q), (heldLabels S).contains (label i q), -6, 6⟩ := by
    intro c hc he
    rw [List.mem_reverse] at hc
    obtain ⟨r, hr, rfl⟩ := List.mem_map.mp hc
    obtain ⟨h1, h2, h3, h4⟩ := sz_stacked.mp hr
    obtain ⟨e1, e2⟩ := h.names _ h1 _ hi _ h2 _ hq he
    obtain ⟨a, b, v⟩ := r
    simp only at e1 e2 h3
    subst e1; subst e2; subst h3
    rfl
  unfold applied
  cases hf : (coefs S).reverse.find? (fun c => c.name == label i q) with
  | none =>
    have := List.find?_eq_none.mp hf _ hmem
    simp at this
  | some c =>
    rw [huniq c (List.mem_of_find?_eq_some hf) (by simpa using List.find?_some hf)]

theorem sz_lookup {ids : List (String × Int)} (hn : (ids.map Prod.fst).Nodup) {e : String × Int} (he : e ∈ ids) : ids.lookup e.1 = some e.2 := by
  induction ids with
  | nil => cases he
  | cons x t ih =>
    obtain ⟨a, b⟩ := x
    rw [List.map_cons, List.nodup_cons] at hn
    rw [List.lookup_cons]
    rcases List.mem_cons.mp he with h | h
    · subst h; simp
    · have hne : e.1 ≠ a := by
        rintro e1
        exact hn.1 (e1 ▸ List.mem_map.mpr ⟨e, h, rfl⟩)
      rw [beq_eq_false_iff_ne.mpr hne]
      exact ih hn.2 h

theorem sz_segLabel {ids : List (String × Int)} (hn : (ids.map Prod.snd).Nodup) {e : String × Int} (he : e ∈ ids) : segLabel ids e.2 = some e.1 := by
  unfold segLabel
  cases hf : ids.reverse.find? (fun x => x.2 == e.2) with
  | none =>
    have := List.find?_eq_none.mp hf e (List.mem_reverse.mpr he)
    simp at this
  | some x =>
    have hx : x ∈ ids := List.mem_reverse.mp (List.mem_of_find?_eq_some hf)
    have hx2 : x.2 = e.2 := by simpa using List.find?_some hf
    rw [List.inj_on_of_nodup_map hn hx he hx2]
    rfl

theorem sz_sum_filter {α : Type} (p : α → Prop) [DecidablePred p] (g : α → ℝ) (l : List α) (h : ∀ x ∈ l, ¬ p x → g x = 0) :
    ((l.filter (fun x => decide (p x))).map g).sum = (l.map g).sum := by
  induction l with
  | nil => rfl
  | cons x t ih =>
    have ih' := ih (fun y hy => h y (by simp [hy]))
    by_cases hp : p x
    · rw [List.filter_cons_of_pos (by simpa using hp), List.map_cons, List.map_cons, List.sum_cons, List.sum_cons, ih']
    · rw [List.filter_cons_of_neg (by simpa using hp), ih', List.map_cons, List.sum_cons, h x (by simp) hp, zero_add]

theorem sz_kept_sum {S : SizeTerms.Spec} (h : ProperSize S) {i : String} (hi : i ∈ S.segs) (g : String → ℝ) :
    ((kept S).map (fun q => S.val i q * g q)).sum = (S.fields.map (fun q => S.val i q * g q)).sum := by
  classical
  unfold kept
  refine (?_ : _ = _).trans (sz_sum_filter (fun q => ∃ i ∈ S.segs, 0 < S.val i q) (fun q => S.val i q * g q) S.fields ?_)
  · congr 3
  · intro q hq hno
    have : S.val i q = 0 := le_antisymm (not_lt.mp (fun hv => hno ⟨i, hi, hv⟩)) (h.nonneg i hi q hq)
    rw [this, zero_mul]

theorem sz_sum_single {α : Type} (l : List α) (hn : l.Nodup) (a : α) (ha : a ∈ l) (g : α → ℝ) (h : ∀ x ∈ l, x ≠ a → g x = 0) : (l.map g).sum = g a := by
  induction l with
  | nil => cases ha
  | cons x t ih =>
    rw [List.nodup_cons] at hn
    rw [List.map_cons, List.sum_cons]
    rcases List.mem_cons.mp ha with e | hm
    · subst e
      have : (t.map g).sum = 0 := by
        apply List.sum_eq_zero
        intro y hy
        obtain ⟨z, hz, rfl⟩ := List.mem_map.mp hy
        exact h z (by simp [hz]) (fun e => hn.1 (e ▸ hz))
      rw [this, add_zero]
    · rw [ih hn.2 hm (fun y hy hne => h y (by simp [hy]) hne), h x (by simp) (fun e => hn.1 (e ▸ hm)), zero_add]

theorem sz_sum_flatMap {α : Type} (l : List α) (g : α → List ℝ) : (l.flatMap g).sum = (l.map (fun a => (g a).sum)).sum := by
  induction l with
  | nil => rfl
  | cons x t ih => rw [List.flatMap_cons, List.sum_append, ih, List.map_cons, List.sum_cons]

theorem sz_total {S : SizeTerms.Spec} (h : ProperSize S) {i : String} (hi : i ∈ S.segs) (d : String → ℝ) : totalSize S i d = specSize S i d := by
  unfold totalSize specSize
  rw [← sz_kept_sum h hi d]
  congr 1
  exact List.map_congr_left (fun q _ => mul_comm _ _)

/-! ## Theorems -/

/-- **C140 (size).** At the starting values the quantity the model computes for a chooser of segment `i` in a zone with land use `d` is the size of the zone in the
size specification. -/
theorem C140_size (S : SizeTerms.Spec) (h : ProperSize S) (ids : List (String × Int)) (hids : ProperIds S ids) :
    ∃ ts, terms S ids = some ts ∧ ∀ i ∈ S.segs, ∀ x, (i, x) ∈ ids → ∀ d, quantity ts (start S) x d = specSize S i d := by
  classical
  have hlk : ∀ i ∈ S.segs, ∃ x, (i, x) ∈ ids ∧ ids.lookup i = some x := by
    intro i hi
    obtain ⟨e, he, rfl⟩ := List.mem_map.mp (hids.all i hi)
    exact ⟨e.2, he, sz_lookup hids.names he⟩
  refine ⟨_, by
    unfold terms
    rw [if_pos]
    rw [List.all_eq_true]
    intro i hi
    obtain ⟨x, _, hx⟩ := hlk i hi
    simp [hx], ?_⟩
  intro i hi x hx d
  unfold quantity
  rw [List.map_flatMap, sz_sum_flatMap]
  rw [sz_sum_single S.segs h.segs i hi]
  · rw [List.map_map]
    have hx' : ids.lookup i = some x := sz_lookup hids.names hx
    unfold specSize
    rw [← sz_kept_sum h hi d]
    refine (sz_sum_filter (fun q => S.val i q ≠ 0) _ _ ?_).symm.trans ?_ |>.symm
    · intro q _ hno
      simp only [not_not] at hno
      rw [hno, zero_mul]
    · congr 1
      rw [List.filter_congr (q := fun q => decide (S.val i q ≠ 0)) (fun _ _ => by congr)]
      refine List.map_congr_left (fun q hq => ?_)
      obtain ⟨hq1, hq2⟩ := List.mem_filter.mp hq
      have hqf := sz_kept_sub hq1
      have hpos : 0 < S.val i q := lt_of_le_of_ne (h.nonneg i hi q hqf) (Ne.symm (by simpa using hq2))
      simp only [Function.comp, hx', Option.getD_some, if_true, mul_one]
      unfold start
      rw [sz_applied h hi hqf hpos]
      simp only [Option.map_some, Option.getD_some]
      rw [Real.exp_log hpos]
  · intro j hj hne
    rw [List.map_map]
    apply List.sum_eq_zero
    intro y hy
    obtain ⟨q, _, rfl⟩ := List.mem_map.mp hy
    obtain ⟨z, hz, hz'⟩ := hlk j hj
    have : x ≠ z := by
      rintro rfl
      have := List.inj_on_of_nodup_map hids.nums hx hz rfl
      exact hne (congrArg Prod.fst this).symm
    simp [hz', this]

/-- **C140 (one reference).** For a segment with any positive value exactly one coefficient is held fast: that of its first field with a positive value. -/
theorem C140_held (S : SizeTerms.Spec) (h : ProperSize S) (i : String) (hi : i ∈ S.segs) (pre post : List String) (q0 : String) (hf : S.fields = pre ++ q0 :: post)
    (hq0 : 0 < S.val i q0) (hpre : ∀ q ∈ pre, S.val i q = 0) :
    ∀ q ∈ S.fields, 0 < S.val i q → ∃ c, applied S (i ++ "_" ++ q) = some c ∧ (c.hold = true ↔ q = q0) := by
  classical
  intro q hq hv
  refine ⟨_, sz_applied h hi hq hv, ?_⟩
  have hq0f : q0 ∈ S.fields := by rw [hf]; simp
  -- the first row of the segment
  have hfirst : (stacked S).find? (fun r => r.1 == i) = some (i, q0, S.val i q0) := by
    have hne : ((stacked S).find? (fun r => r.1 == i)).isSome := by
      rw [List.find?_isSome]
      exact ⟨(i, q0, S.val i q0), sz_stacked.mpr ⟨hi, hq0f, rfl, hq0⟩, by simp⟩
    obtain ⟨s1, s2, hs⟩ := List.append_of_mem hi
    have hns : i ∉ s1 := by
      have := h.segs
      rw [hs] at this
      exact fun hm => (List.nodup_append.mp this).2.2 i hm i (by simp) rfl
    unfold stacked
    rw [hs, List.flatMap_append, List.flatMap_cons, List.filter_append, List.filter_append, List.find?_append, List.find?_append]
    have e1 : (List.filter (fun r : String × String × ℝ => decide (0 < r.2.2)) (s1.flatMap (fun i => (kept S).map (fun q => (i, q, S.val i q))))).find? (fun r => r.1 == i) = none := by
      rw [List.find?_eq_none]
      intro r hr
      obtain ⟨j, hj, hr⟩ := List.mem_flatMap.mp (List.mem_filter.mp hr).1
      obtain ⟨p, _, rfl⟩ := List.mem_map.mp hr
      simp only [beq_iff_eq]
      rintro rfl
      exact hns hj
    have hkept : kept S = (pre.filter (fun q => decide (∃ i ∈ S.segs, 0 < S.val i q))) ++ q0 :: (post.filter (fun q => decide (∃ i ∈ S.segs, 0 < S.val i q))) := by
      unfold kept
      rw [hf, List.filter_append, List.filter_cons_of_pos (by simpa using ⟨i, hi, hq0⟩)]
    have e2 : (List.filter (fun r : String × String × ℝ => decide (0 < r.2.2)) ((kept S).map (fun q => (i, q, S.val i q)))).find? (fun r => r.1 == i) =
        some (i, q0, S.val i q0) := by
      rw [hkept, List.map_append, List.filter_append, List.map_cons, List.filter_cons_of_pos (by simpa using hq0), List.find?_append]
      have : List.filter (fun r : String × String × ℝ => decide (0 < r.2.2)) ((pre.filter (fun q => decide (∃ i ∈ S.segs, 0 < S.val i q))).map (fun q => (i, q, S.val i q))) = [] := by
        rw [List.filter_eq_nil_iff]
        intro r hr
        obtain ⟨p, hp, rfl⟩ := List.mem_map.mp hr
        simp [hpre p (List.mem_filter.mp hp).1]
      rw [this]
      simp
    rw [e1, e2]
    rfl
  show (heldLabels S).contains (label i q) = true ↔ _
  rw [List.contains_iff_mem]
  unfold heldLabels
  rw [List.mem_filterMap]
  constructor
  · rintro ⟨j, hj, he⟩
    obtain ⟨r, hr, he⟩ := Option.map_eq_some_iff.mp he
    obtain ⟨h1, h2, _, _⟩ := sz_stacked.mp (List.mem_of_find?_eq_some hr)
    obtain ⟨e1, e2⟩ := h.names _ h1 _ hi _ h2 _ hq he
    have hji : j = i := by
      have : r.1 = j := by simpa using List.find?_some hr
      rw [← this, e1]
    rw [hji, hfirst] at hr
    rw [← e2, ← Option.some.inj hr]
  · rintro rfl
    exact ⟨i, hi, by rw [hfirst]; rfl⟩

/-- **C140 (choosers).** If every chooser's segment is numbered and every observed zone is in the land use table, the choosers kept are, in order, those whose
observed zone has positive size for their own segment. -/
theorem C140_choosers (S : SizeTerms.Spec) (h : ProperSize S) (ids : List (String × Int)) (hids : ProperIds S ids) (landuse : Int → Option (String → ℝ))
    (cs : List Chooser) (hseg : ∀ c ∈ cs, c.seg ∈ ids.map Prod.snd) (hz : ∀ c ∈ cs, landuse c.choice ≠ none) :
    ∃ k, keep S ids landuse cs = some k ∧ k.Sublist cs ∧
      ∀ c, c ∈ k ↔ c ∈ cs ∧ ∃ i d, (i, c.seg) ∈ ids ∧ i ∈ S.segs ∧ landuse c.choice = some d ∧ 0 < specSize S i d := by
  classical
  have hsl : ∀ c ∈ cs, ∃ i, (i, c.seg) ∈ ids ∧ segLabel ids c.seg = some i := by
    intro c hc
    obtain ⟨e, he, e2⟩ := List.mem_map.mp (hseg c hc)
    obtain ⟨n, x⟩ := e
    simp only at e2
    subst e2
    exact ⟨n, he, sz_segLabel hids.nums he⟩
  refine ⟨cs.filter (fun c => decide (0 < sizeOf S ids landuse c)), ?_, List.filter_sublist, fun c => ?_⟩
  · unfold keep
    rw [if_pos]
    · rw [List.all_eq_true]
      intro c hc
      obtain ⟨i, _, e⟩ := hsl c hc
      rw [e]
      obtain ⟨d, hd⟩ := Option.ne_none_iff_exists'.mp (hz c hc)
      simp [hd]
  · rw [List.mem_filter, decide_eq_true_iff]
    refine and_congr_right (fun hc => ?_)
    obtain ⟨i, hi, e⟩ := hsl c hc
    obtain ⟨d, hd⟩ := Option.ne_none_iff_exists'.mp (hz c hc)
    have hval : sizeOf S ids landuse c = if i ∈ S.segs then totalSize S i d else 0 := by unfold SizeTerms.sizeOf; rw [e, hd]
    rw [hval]
    constructor
    · intro hpos
      by_cases hm : i ∈ S.segs
      · rw [if_pos hm, sz_total h hm] at hpos
        exact ⟨i, d, hi, hm, hd, hpos⟩
      · rw [if_neg hm] at hpos
        exact absurd hpos (lt_irrefl _)
    · rintro ⟨j, d', hj, hm, hd', hpos⟩
      have hij : j = i := congrArg Prod.fst (List.inj_on_of_nodup_map hids.nums hj hi rfl)
      subst hij
      rw [hd, Option.some.injEq] at hd'
      subst hd'
      rw [if_pos hm, sz_total h hm]
      exact hpos

/-- **C140 fails (bounds).** A coefficient smaller than `exp(-6)` starts outside the bounds that are set for it. -/
theorem C140_fails_bounds (S : SizeTerms.Spec) (h : ProperSize S) (i q : String) (hi : i ∈ S.segs) (hq : q ∈ S.fields) (hv : 0 < S.val i q)
    (hs : S.val i q < Real.exp (-6)) : ∃ c, applied S (i ++ "_" ++ q) = some c ∧ c.value < c.min := by
  refine ⟨_, sz_applied h hi hq hv, ?_⟩
  show Real.log (S.val i q) < -6
  rw [Real.log_lt_iff_lt_exp hv]
  exact hs

/-- **C140 fails (unknown zone).** A chooser whose observed zone is not in the land use table (for instance -1) is not removed: the model cannot be built. -/
theorem C140_fails_zone (S : SizeTerms.Spec) (hs : S.segs ≠ []) (ids : List (String × Int)) (landuse : Int → Option (String → ℝ)) (cs : List Chooser) (c : Chooser)
    (hc : c ∈ cs) (hz : landuse c.choice = none) : keep S ids landuse cs = none := by
  unfold keep
  rw [if_neg]
  rw [List.all_eq_true]
  intro h
  have := h c hc
  simp [hz, hs] at this

/-- A specification in which two coefficients have the same name. -/
noncomputable def clashing : SizeTerms.Spec := ⟨["work", "work_low"], ["low_emp", "emp"], fun i q => if i = "work" ∧ q = "low_emp" then 2 else if i = "work_low" ∧ q = "emp" then 3 else 0⟩

/-- **C140 fails (names).** If the names of a segment and a field run together to the same name as those of others, one parameter is used for
both, and the quantity is not the size: here 3 instead of 2. -/
theorem C140_fails_names : ∃ ts, terms clashing [("work", 1), ("work_low", 2)] = some ts ∧ quantity ts (start clashing) 1 (fun _ => 1) = 3 ∧
    specSize clashing "work" (fun _ => 1) = 2 := by
  classical
  have hk : kept clashing = ["low_emp", "emp"] := by
    unfold kept clashing
    simp [List.filter_cons]
  have hst : stacked clashing = [("work", "low_emp", 2), ("work_low", "emp", 3)] := by
    unfold stacked
    rw [hk]
    simp [clashing, List.filter_cons]
  have hco : start clashing "work_low_emp" = Real.log 3 := by
    unfold start applied coefs
    rw [hst]
    simp [label]
  refine ⟨[⟨"work_low_emp", "low_emp", 1⟩, ⟨"work_low_emp", "emp", 2⟩], ?_, ?_, ?_⟩
  · unfold terms
    rw [if_pos]
    · rw [hk]
      simp [clashing, List.filter_cons, label, List.lookup]
    · simp [clashing, List.lookup]
  · unfold quantity
    simp [hco, Real.exp_log]
  · unfold specSize clashing
    simp

/-! ## A concrete case -/

/-- Two segments, two fields. -/
noncomputable def smallSize : SizeTerms.Spec := ⟨["low", "high"], ["emp", "enrol"], fun i q => if i = "low" then (if q = "emp" then 1 / 2 else 1 / 1000) else (if q = "emp" then 0 else 4)⟩

theorem sz_small : ProperSize smallSize := by
  refine ⟨by simp [smallSize], by simp [smallSize], ?_, ?_⟩
  · intro i _ q _
    simp only [smallSize]
    split <;> split <;> norm_num
  · intro i hi j hj p hp q hq
    simp only [smallSize, List.mem_cons, List.not_mem_nil, or_false] at hi hj hp hq
    rcases hi with rfl | rfl <;> rcases hj with rfl | rfl <;> rcases hp with rfl | rfl <;> rcases hq with rfl | rfl <;> decide

theorem sz_small_ids : ProperIds smallSize [("high", 2), ("low", 1)] := ⟨by decide, by decide, by simp [smallSize]⟩

example : ∃ ts, terms smallSize [("high", 2), ("low", 1)] = some ts ∧ quantity ts (start smallSize) 1 (fun q => if q = "emp" then 10 else 1000) = 6 := by
  obtain ⟨ts, h1, h2⟩ := C140_size smallSize sz_small _ sz_small_ids
  refine ⟨ts, h1, ?_⟩
  rw [h2 "low" (by simp [smallSize]) 1 (by simp)]
  simp [specSize, smallSize]
  norm_num

example : ∃ c, applied smallSize "high_enrol" = some c ∧ c.hold = true := by
  obtain ⟨c, h1, h2⟩ := C140_held smallSize sz_small "high" (by simp [smallSize]) ["emp"] [] "enrol" rfl (by simp [smallSize]) (by simp [smallSize]) "enrol"
    (by simp [smallSize]) (by simp [smallSize])
  exact ⟨c, h1, h2.mpr rfl⟩

example : ∃ c, applied smallSize "low_enrol" = some c ∧ c.value < c.min := by
  refine C140_fails_bounds smallSize sz_small "low" "enrol" (by simp [smallSize]) (by simp [smallSize]) (by simp [smallSize]) ?_
  have h1 := Real.exp_one_lt_d9
  have h2 : Real.exp 6 < 1000 := by
    have : Real.exp 6 = (Real.exp 1) ^ 6 := by rw [← Real.exp_nat_mul]; norm_num
    rw [this]
    calc (Real.exp 1) ^ 6 < (2.7182818286 : ℝ) ^ 6 := pow_lt_pow_left₀ h1 (Real.exp_pos 1).le (by norm_num)
      _ < 1000 := by norm_num
  rw [Real.exp_neg]
  simp only [smallSize]
  rw [if_pos trivial, if_neg (by decide)]
  rw [one_div]
  exact inv_strictAnti₀ (Real.exp_pos 6) h2

end Larch.Props
