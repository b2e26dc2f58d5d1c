import Verif.Model.AsimModels
import Mathlib.Tactic.Linarith
import Mathlib.Tactic.NormNum
import Mathlib.Algebra.Order.BigOperators.Group.List

/-!
# C141, C142: the utilities and availability of ActivitySim models are those of the spec
-/

namespace Larch.Props

open Larch.AsimModels

/-! ## Specification -/

/-- The utility written in a column of the spec when the coefficient called `c` has the value `v c`: rows that are comments (`#`) or have no coefficient do
not count. -/
noncomputable def specUtility (rows : List AsimModels.Row) (col : String) (v : String → ℝ) (x : String → ℝ) : ℝ :=
  (rows.map (fun r => if r.label = "#" then 0 else match r.coef col with
    | some c => v c * x r.label
    | none => 0)).sum

/-- A row of the spec excludes the alternative: its coefficient for the purpose is `-999` and its data are not zero. -/
def Excludes (tpl : String → Option String) (col : String) (x : String → ℝ) (r : AsimModels.Row) : Prop :=
  r.label ≠ "#" ∧ ∃ c, r.coef col = some c ∧ (tpl c).getD c = "-999" ∧ x r.label ≠ 0

/-! ## Tour mode choice -/

theorem am_terms {ign : List String} {rows : List AsimModels.Row} {col : String} {t : AsimModels.Term} : t ∈ specTerms ign rows col ↔
    ∃ r ∈ rows, r.label ∉ ign ∧ r.coef col = some t.param ∧ t.data = r.label := by
  unfold specTerms
  rw [List.mem_filterMap]
  constructor
  · rintro ⟨r, hr, h⟩
    by_cases hi : r.label ∈ ign
    · simp [hi] at h
    · simp only [List.contains_iff_mem, hi, if_false, Option.map_eq_some_iff] at h
      obtain ⟨c, hc, rfl⟩ := h
      exact ⟨r, hr, hi, hc, rfl⟩
  · rintro ⟨r, hr, hi, hc, hd⟩
    refine ⟨r, hr, ?_⟩
    simp only [List.contains_iff_mem, hi, if_false, hc, Option.map_some, Option.some.injEq]
    cases t; simp_all

theorem am_value (rows : List AsimModels.Row) (col : String) (v : String → ℝ) (x : String → ℝ) :
    AsimModels.value v x (specTerms ["#"] rows col) = specUtility rows col v x := by
  unfold AsimModels.value specTerms specUtility
  induction rows with
  | nil => rfl
  | cons r t ih =>
    rw [List.map_cons, List.sum_cons, List.filterMap_cons, ← ih]
    by_cases h : r.label = "#"
    · simp [h]
    · cases hc : r.coef col with
      | none => simp [h]
      | some c => simp [h]

/-- **C141 (utilities).** The utility of an alternative for a purpose is the one written in the spec, where every coefficient stands for the one that the template of the purpose
names instead of it. -/
theorem C141_utility (rows : List AsimModels.Row) (tpl : String → Option String) (col : String) (ts : List AsimModels.Term)
    (h : purposeUtility rows tpl col = some ts) (pv : String → ℝ) (x : String → ℝ) :
    AsimModels.value pv x ts = specUtility rows col (fun c => pv ((tpl c).getD c)) x := by
  unfold purposeUtility at h
  split at h
  · cases h
  · rw [Option.some.injEq] at h
    rw [← am_value, ← h]
    unfold AsimModels.value retarget
    rw [List.map_map]
    rfl

theorem am_sum_zero (l : List ℝ) (h : ∀ v ∈ l, 0 ≤ v) : l.sum = 0 ↔ ∀ v ∈ l, v = 0 := by
  induction l with
  | nil => simp
  | cons a t ih =>
    have ht := ih (fun v hv => h v (by simp [hv]))
    have h1 : 0 ≤ a := h a (by simp)
    have h2 : 0 ≤ t.sum := List.sum_nonneg (fun v hv => h v (by simp [hv]))
    rw [List.sum_cons]
    constructor
    · intro e
      have ha : a = 0 := by linarith
      have hs : t.sum = 0 := by linarith
      intro v hv
      rcases List.mem_cons.mp hv with rfl | hv
      · exact ha
      · exact ht.mp hs v hv
    · intro hv
      rw [hv a (by simp), ht.mpr (fun v h' => hv v (by simp [h'])), add_zero]

/-- **C141 (availability).** With data that are not negative, an alternative that has any coefficient is available to a chooser exactly if no row of the spec excludes it with
the template of the first purpose. -/
theorem C141_available (rows : List AsimModels.Row) (tpl : String → Option String) (tpls : List (String → Option String)) (col : String) (x : String → ℝ)
    (hx : ∀ s, 0 ≤ x s) (hne : ∃ r ∈ rows, r.label ≠ "#" ∧ r.coef col ≠ none) :
    ∃ b, tourAvail rows (tpl :: tpls) col x = some b ∧ (b = true ↔ ∀ r ∈ rows, ¬ Excludes tpl col x r) := by
  have hnil : specTerms ["#"] rows col ≠ [] := by
    obtain ⟨r, hr, h1, h2⟩ := hne
    obtain ⟨c, hc⟩ := Option.ne_none_iff_exists'.mp h2
    exact List.ne_nil_of_mem (am_terms.mpr ⟨r, hr, by simpa using h1, hc, rfl⟩ : (⟨c, r.label⟩ : AsimModels.Term) ∈ _)
  unfold tourAvail purposeUtility
  simp only [if_neg hnil, Option.map_some]
  refine ⟨_, rfl, ?_⟩
  have key : (∀ t ∈ (retarget tpl (specTerms ["#"] rows col)).filter (fun t => t.param == "-999"), x t.data = 0) ↔ ∀ r ∈ rows, ¬ Excludes tpl col x r := by
    constructor
    · rintro h r hr ⟨h1, c, hc, hm, hxr⟩
      refine hxr (h ⟨"-999", r.label⟩ ?_)
      rw [List.mem_filter]
      refine ⟨List.mem_map.mpr ⟨⟨c, r.label⟩, am_terms.mpr ⟨r, hr, by simpa using h1, hc, rfl⟩, by simp [hm]⟩, by simp⟩
    · intro h t ht
      obtain ⟨ht, hp⟩ := List.mem_filter.mp ht
      obtain ⟨s, hs, rfl⟩ := List.mem_map.mp ht
      obtain ⟨r, hr, h1, hc, hd⟩ := am_terms.mp hs
      by_contra hne'
      exact h r hr ⟨by simpa using h1, s.param, hc, by simpa using hp, by rw [← hd]; exact hne'⟩
  rw [← key]
  generalize List.filter (fun t => t.param == "-999") (retarget tpl (specTerms ["#"] rows col)) = L
  by_cases hl : L.length = 0
  · rw [List.length_eq_zero_iff.mp hl]
    simp
  · rw [if_neg hl, decide_eq_true_iff, am_sum_zero _ (fun v hv => by obtain ⟨t, _, rfl⟩ := List.mem_map.mp hv; exact hx _)]
    simp

/-- **C141 (all purposes).** If the templates leave `-999` alone and make no other coefficient of it, an alternative that is available is excluded for no purpose. -/
theorem C141_all_purposes_partial (rows : List AsimModels.Row) (tpls : List (String → Option String)) (col : String) (x : String → ℝ) (hx : ∀ s, 0 ≤ x s)
    (htpl : ∀ tpl ∈ tpls, ∀ r ∈ rows, ∀ c, r.coef col = some c → ((tpl c).getD c = "-999" ↔ c = "-999")) (h : tourAvail rows tpls col x = some true) :
    ∀ tpl ∈ tpls, ∀ r ∈ rows, ¬ Excludes tpl col x r := by
  cases tpls with
  | nil => intro tpl ht; cases ht
  | cons t0 rest =>
    have hne : ∃ r ∈ rows, r.label ≠ "#" ∧ r.coef col ≠ none := by
      by_contra hno
      have : specTerms ["#"] rows col = [] := by
        rw [List.eq_nil_iff_forall_not_mem]
        intro t ht
        obtain ⟨r, hr, h1, hc, _⟩ := am_terms.mp ht
        exact hno ⟨r, hr, by simpa using h1, by rw [hc]; simp⟩
      unfold tourAvail purposeUtility at h
      simp [this] at h
    obtain ⟨b, h1, h2⟩ := C141_available rows t0 rest col x hx hne
    rw [h, Option.some.injEq] at h1
    have h3 := h2.mp h1.symm
    rintro tpl ht r hr ⟨e1, c, hc, hm, hxr⟩
    refine h3 r hr ⟨e1, c, hc, ?_, hxr⟩
    rw [htpl t0 (by simp) r hr c hc]
    exact (htpl tpl ht r hr c hc).mp hm

/-- **C141 fails (other purposes).** A coefficient that the template of the second purpose fixes at `-999` does not make the alternative unavailable for that
purpose. -/
theorem C141_fails_purpose : ∃ (rows : List AsimModels.Row) (t1 t2 : String → Option String) (x : String → ℝ), (∀ s, 0 ≤ x s) ∧
    tourAvail rows [t1, t2] "WALK" x = some true ∧ ∃ r ∈ rows, Excludes t2 "WALK" x r := by
  refine ⟨[⟨"dist", fun _ => some "coef_walk"⟩], fun _ => none, fun c => if c = "coef_walk" then some "-999" else none, fun _ => 1, fun _ => zero_le_one, ?_,
    _, List.mem_singleton.mpr rfl, by decide, "coef_walk", rfl, rfl, one_ne_zero⟩
  simp [tourAvail, purposeUtility, specTerms, retarget]

/-- **C141 fails (numbers).** The exclusion is recognised only as the text `-999`: a column that holds only numbers is read as `-999.0`, and
the alternative stays available. -/
theorem C141_fails_number (rest : List (String → Option String)) (x : String → ℝ) :
    tourAvail [⟨"no_car", fun _ => some "-999.0"⟩] ((fun _ => none) :: rest) "DRIVE" x = some true := by
  simp [tourAvail, purposeUtility, specTerms, retarget]

/-- **C141 fails (no coefficients).** With an alternative that has no coefficients the model cannot be built. -/
theorem C141_fails_empty (rows : List AsimModels.Row) (tpl : String → Option String) (col : String) (h : ∀ r ∈ rows, r.coef col = none) :
    purposeUtility rows tpl col = none := by
  unfold purposeUtility
  rw [if_pos]
  rw [List.eq_nil_iff_forall_not_mem]
  intro t ht
  obtain ⟨r, hr, _, hc, _⟩ := am_terms.mp ht
  rw [h r hr] at hc
  cases hc

/-! ## Non-mandatory tour frequency -/

theorem am_find {cs : List AsimModels.Coef} (hn : (cs.map AsimModels.Coef.name).Nodup) {k : AsimModels.Coef} (hk : k ∈ cs) :
    cs.find? (fun c => c.name == k.name) = some k := by
  cases hf : cs.find? (fun c => c.name == k.name) with
  | none => have := List.find?_eq_none.mp hf k hk; simp at this
  | some c =>
    have h1 := List.mem_of_find?_eq_some hf
    have h2 : c.name = k.name := by simpa using List.find?_some hf
    rw [List.inj_on_of_nodup_map hn h1 hk h2]

theorem am_linked {cs : List AsimModels.Coef} (hn : (cs.map AsimModels.Coef.name).Nodup) {k : AsimModels.Coef} (hk : k ∈ cs) :
    ∃ r ∈ cs, linked cs k.name = some r.name ∧ r.value = k.value := by
  classical
  unfold linked
  rw [am_find hn hk, Option.map_some, Option.bind_some]
  unfold nameOf
  cases hf : cs.reverse.find? (fun c => decide (c.value = k.value)) with
  | none =>
    have := List.find?_eq_none.mp hf k (List.mem_reverse.mpr hk)
    simp at this
  | some r =>
    exact ⟨r, List.mem_reverse.mp (List.mem_of_find?_eq_some hf), rfl, by simpa using List.find?_some hf⟩

/-- **C142 (linking).** `link_same_value_coefficients` replaces each coefficient of the table by one of the table with the same value, and two coefficients by the same one
exactly if they have the same value. -/
theorem C142_linked (cs : List AsimModels.Coef) (hn : (cs.map AsimModels.Coef.name).Nodup) :
    (∀ k ∈ cs, ∃ r ∈ cs, linked cs k.name = some r.name ∧ r.value = k.value) ∧
    (∀ k ∈ cs, ∀ l ∈ cs, linked cs k.name = linked cs l.name ↔ k.value = l.value) := by
  refine ⟨fun k hk => am_linked hn hk, fun k hk l hl => ⟨fun h => ?_, fun h => ?_⟩⟩
  · obtain ⟨r, hr, h1, h2⟩ := am_linked hn hk
    obtain ⟨s, hs, h3, h4⟩ := am_linked hn hl
    rw [h1, h3, Option.some.injEq] at h
    rw [← h2, ← h4, List.inj_on_of_nodup_map hn hr hs h]
  · unfold linked
    rw [am_find hn hk, am_find hn hl, Option.map_some, Option.map_some, h]

/-- **C142 (utility).** If all coefficients of the spec are in the table, linking does not change the utility at the values of the table. -/
theorem C142_utility (cs : List AsimModels.Coef) (hn : (cs.map AsimModels.Coef.name).Nodup) (v : String → ℝ) (hv : ∀ k ∈ cs, v k.name = k.value)
    (rows : List AsimModels.Row) (col : String) (hall : ∀ r ∈ rows, ∀ c, r.coef col = some c → c ∈ cs.map AsimModels.Coef.name) (x : String → ℝ) :
    specUtility (link cs rows col) col v x = specUtility rows col v x := by
  unfold specUtility link
  rw [List.map_map]
  congr 1
  refine List.map_congr_left (fun r hr => ?_)
  simp only [Function.comp, if_true]
  by_cases h : r.label = "#"
  · simp [h]
  · rw [if_neg h, if_neg h]
    cases hc : r.coef col with
    | none => rfl
    | some c =>
      obtain ⟨k, hk, rfl⟩ := List.mem_map.mp (hall r hr c hc)
      obtain ⟨s, hs, h1, h2⟩ := am_linked hn hk
      simp only [Option.bind_some, h1]
      rw [hv s hs, hv k hk, h2]

/-- **C142 fails (numbers in the spec).** An entry of the spec that is not in the table, such as the number -999, is dropped, and with it the
term. -/
theorem C142_fails_number (cs : List AsimModels.Coef) (hno : "-999" ∉ cs.map AsimModels.Coef.name) (s col : String) :
    specTerms [] [⟨s, fun _ => some "-999"⟩] col = [⟨"-999", s⟩] ∧ specTerms [] (link cs [⟨s, fun _ => some "-999"⟩] col) col = [] := by
  refine ⟨by simp [specTerms], ?_⟩
  have : linked cs "-999" = none := by
    unfold linked
    have : cs.find? (fun k => k.name == "-999") = none := by
      rw [List.find?_eq_none]
      intro k hk e
      exact hno (List.mem_map.mpr ⟨k, hk, by simpa using e⟩)
    rw [this]; rfl
  simp [specTerms, link, this]

/-- **C142 fails (held fast).** Linking does not look at which coefficients are held fast: a free coefficient whose value is that of a fixed one is replaced by
the fixed one, so that it is not estimated. -/
theorem C142_fails_hold : ∃ (cs : List AsimModels.Coef) (k r : AsimModels.Coef), (cs.map AsimModels.Coef.name).Nodup ∧ k ∈ cs ∧ r ∈ cs ∧ k.hold = false ∧
    r.hold = true ∧ linked cs k.name = some r.name := by
  refine ⟨[⟨"asc", 0, false⟩, ⟨"base", 0, true⟩], ⟨"asc", 0, false⟩, ⟨"base", 0, true⟩, by simp, by simp, by simp, rfl, rfl, ?_⟩
  simp [linked, nameOf]

/-- **C142 (availability).** If the utility has a term with a coefficient that is held fast below -900, an alternative is available exactly if the data of all such terms are
not positive. -/
theorem C142_available (pf : List AsimModels.Coef) (ts : List AsimModels.Term) (x : String → ℝ)
    (hne : ∃ t ∈ ts, ∃ c ∈ pf, c.name = t.param ∧ c.value < -900 ∧ c.hold = true) :
    ∃ b, freqAvail pf ts x = some b ∧ (b = true ↔ ∀ t ∈ ts, ∀ c ∈ pf, c.name = t.param → c.value < -900 → c.hold = true → x t.data ≤ 0) := by
  classical
  have hmem : ∀ s, s ∈ penaltyCols pf ts ↔ ∃ t ∈ ts, (∃ c ∈ pf, c.name = t.param ∧ c.value < -900 ∧ c.hold = true) ∧ t.data = s := by
    intro s
    unfold penaltyCols
    simp only [List.mem_map, List.mem_filter, List.any_eq_true, Bool.and_eq_true, beq_iff_eq, decide_eq_true_iff, and_assoc]
  have hnn : penaltyCols pf ts ≠ [] := by
    obtain ⟨t, ht, hc⟩ := hne
    exact List.ne_nil_of_mem ((hmem t.data).mpr ⟨t, ht, hc, rfl⟩)
  unfold freqAvail
  rw [if_neg hnn]
  refine ⟨_, rfl, ?_⟩
  rw [Bool.not_eq_true', Bool.eq_false_iff, Ne, List.any_eq_true]
  constructor
  · intro h t ht c hc e1 e2 e3
    by_contra hpos
    exact h ⟨t.data, (hmem _).mpr ⟨t, ht, ⟨c, hc, e1, e2, e3⟩, rfl⟩, by simpa using hpos⟩
  · rintro h ⟨s, hs, hpos⟩
    obtain ⟨t, ht, ⟨c, hc, e1, e2, e3⟩, rfl⟩ := (hmem s).mp hs
    have := h t ht c hc e1 e2 e3
    rw [decide_eq_true_iff] at hpos
    exact absurd hpos (not_lt.mpr this)

/-- **C142 fails (no such coefficient).** If there is no coefficient held fast below -900 in the utility, all alternatives should be available, but the model cannot be
built. -/
theorem C142_fails_none (pf : List AsimModels.Coef) (ts : List AsimModels.Term) (x : String → ℝ)
    (hno : ∀ t ∈ ts, ∀ c ∈ pf, c.name = t.param → c.value < -900 → c.hold = false) : freqAvail pf ts x = none := by
  classical
  unfold freqAvail
  rw [if_pos]
  unfold penaltyCols
  rw [List.map_eq_nil_iff, List.filter_eq_nil_iff]
  intro t ht h
  rw [List.any_eq_true] at h
  obtain ⟨c, hc, e⟩ := h
  simp only [Bool.and_eq_true, beq_iff_eq, decide_eq_true_iff] at e
  rw [hno t ht c hc e.1 e.2.1] at e
  exact absurd e.2.2 (by simp)

/-! ## Concrete cases -/

/-- A spec of three rows. -/
def tourRows : List AsimModels.Row := [⟨"no_car", fun c => if c = "DRIVE" then some "-999" else none⟩, ⟨"time", fun c => if c = "DRIVE" then some "coef_ivt" else some "coef_walk"⟩,
  ⟨"#", fun _ => some "text"⟩]

example : ∃ b, tourAvail tourRows [fun _ => none] "DRIVE" (fun s => if s = "no_car" then 1 else 20) = some b ∧ b = false := by
  obtain ⟨b, h1, h2⟩ := C141_available tourRows (fun _ => none) [] "DRIVE" (fun s => if s = "no_car" then 1 else 20) (fun s => by split <;> norm_num)
    ⟨⟨"time", fun c => if c = "DRIVE" then some "coef_ivt" else some "coef_walk"⟩, by simp [tourRows], by decide, by simp⟩
  refine ⟨b, h1, ?_⟩
  cases b
  · rfl
  · exact absurd ⟨by decide, "-999", rfl, rfl, by simp⟩ (h2.mp rfl ⟨"no_car", fun c => if c = "DRIVE" then some "-999" else none⟩ (by simp [tourRows]))

example : ∃ ts, purposeUtility tourRows (fun c => if c = "coef_ivt" then some "coef_ivt_school" else none) "DRIVE" = some ts ∧
    AsimModels.value (fun n => if n = "coef_ivt_school" then -2 else if n = "-999" then -999 else 5) (fun s => if s = "time" then 10 else 0) ts = -20 := by
  refine ⟨[⟨"-999", "no_car"⟩, ⟨"coef_ivt_school", "time"⟩], by simp [purposeUtility, specTerms, tourRows, retarget], ?_⟩
  simp [AsimModels.value]
  norm_num

example : linked [⟨"a", 1, false⟩, ⟨"b", 2, false⟩, ⟨"c", 1, false⟩] "a" = some "c" ∧ linked [⟨"a", 1, false⟩, ⟨"b", 2, false⟩, ⟨"c", 1, false⟩] "b" = some "b" := by
  constructor <;> simp [linked, nameOf]

example : freqAvail [⟨"no", -999, true⟩, ⟨"t", -1, false⟩] [⟨"no", "closed"⟩, ⟨"t", "time"⟩] (fun s => if s = "closed" then 1 else 5) = some false := by
  have h : penaltyCols [⟨"no", -999, true⟩, ⟨"t", -1, false⟩] [⟨"no", "closed"⟩, ⟨"t", "time"⟩] = ["closed"] := by
    simp [penaltyCols, List.filter_cons]
    norm_num
  simp [freqAvail, h]

end Larch.Props
