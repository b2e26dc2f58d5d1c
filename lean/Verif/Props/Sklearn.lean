import Verif.Model.Sklearn
import Mathlib.Analysis.SpecialFunctions.Log.Basic
import Mathlib.Tactic

/-!
# C91: the scikit-learn style interface
-/

namespace Larch.Props

open Larch.Sklearn

variable {ι κ : Type} [DecidableEq ι] [DecidableEq κ]

/-! ## Specification -/

/-- The mean log likelihood: the sum over the rows of the choice times the log probability of the row, per unit of choice. -/
noncomputable def meanLL (rows : List (ι × κ)) (P : ι → κ → ℝ) (y : List ℝ) : ℝ :=
  ((rows.zip y).map (fun q => q.2 * Real.log (P q.1.1 q.1.2))).sum / y.sum

/-- The weighted mean log likelihood. -/
noncomputable def meanWtLL (rows : List (ι × κ)) (P : ι → κ → ℝ) (y w : List ℝ) : ℝ :=
  ((rows.zip (y.zip w)).map (fun q => q.2.2 * (q.2.1 * Real.log (P q.1.1 q.1.2)))).sum /
    ((y.zip w).map (fun q => q.2 * q.1)).sum

/-- The rows come in the order of the data: case by case, the alternatives in their order. -/
def Ordered (cases : List ι) (alts : List κ) (rows : List (ι × κ)) : Prop := rows = slots cases alts rows

/-! ## Probabilities -/

theorem mem_slots (cases : List ι) (alts : List κ) (rows : List (ι × κ)) (k : ι × κ) :
    k ∈ slots cases alts rows ↔ k.1 ∈ cases ∧ k.2 ∈ alts ∧ k ∈ rows := by
  simp only [slots, List.mem_filter, List.mem_flatMap, List.mem_map, decide_eq_true_eq]
  constructor
  · rintro ⟨⟨c, hc, a, ha, rfl⟩, h⟩; exact ⟨hc, ha, h⟩
  · rintro ⟨h1, h2, h3⟩; exact ⟨⟨k.1, h1, k.2, h2, rfl⟩, h3⟩

theorem nodup_slots (cases : List ι) (alts : List κ) (rows : List (ι × κ)) (hc : cases.Nodup) (ha : alts.Nodup) :
    (slots cases alts rows).Nodup := by
  refine List.Nodup.filter _ ?_
  induction cases with
  | nil => simp
  | cons c l ih =>
    rw [List.nodup_cons] at hc
    rw [List.flatMap_cons, List.nodup_append]
    refine ⟨ha.map (fun a b h => by simpa using h), ih hc.2, ?_⟩
    rintro k hk k' hk' rfl
    obtain ⟨a, _, rfl⟩ := List.mem_map.mp hk
    obtain ⟨c', hc', hk'⟩ := List.mem_flatMap.mp hk'
    obtain ⟨a', _, e⟩ := List.mem_map.mp hk'
    have : c' = c := congrArg Prod.fst e
    subst this
    exact hc.1 hc'

/-- **C91 (probabilities).** `predict_proba` returns exactly one number per row of `X`, that of the row's case and
alternative. -/
theorem C91_proba (cases : List ι) (alts : List κ) (rows : List (ι × κ)) (P : ι → κ → ℝ) (hc : cases.Nodup)
    (ha : alts.Nodup) (hr : rows.Nodup) (hin : ∀ k ∈ rows, k.1 ∈ cases ∧ k.2 ∈ alts) :
    ((predictProba cases alts rows P).map Prod.fst).Perm rows ∧
    ∀ q ∈ predictProba cases alts rows P, q.2 = P q.1.1 q.1.2 := by
  constructor
  · have e : (predictProba cases alts rows P).map Prod.fst = slots cases alts rows := by
      simp [predictProba, Function.comp_def]
    rw [e, List.perm_ext_iff_of_nodup (nodup_slots cases alts rows hc ha) hr]
    intro k
    rw [mem_slots]
    exact ⟨fun h => h.2.2, fun h => ⟨(hin k h).1, (hin k h).2, h⟩⟩
  · intro q hq
    obtain ⟨k, _, rfl⟩ := List.mem_map.mp hq
    rfl

/-- **C91 violated (labels).** The cases of the result are numbered from 0, not labelled with the identifiers in `X`. -/
theorem C91_fails_labels : predictIndex [7, 9] [1, 2] [(7, 1), (7, 2), (9, 2)] = [(0, 1), (0, 2), (1, 2)] := by
  decide +kernel

/-! ## Score -/

theorem sum_filter_pos (l : List (ℝ × ℝ)) (g : ℝ → ℝ) (h : ∀ q ∈ l, 0 ≤ q.2) (adj : ℝ) :
    open Classical in
    ((l.filter (fun q => decide (0 < q.2))).map (fun q => g q.1 * q.2 / adj)).sum =
      (l.map (fun q => q.2 * g q.1)).sum / adj := by
  classical
  induction l with
  | nil => simp
  | cons a l ih =>
    have ih' := ih (fun q hq => h q (List.mem_cons_of_mem _ hq))
    by_cases ha : 0 < a.2
    · rw [List.filter_cons_of_pos (by simpa using ha), List.map_cons, List.sum_cons, ih', List.map_cons, List.sum_cons]
      ring
    · have h0 : a.2 = 0 := le_antisymm (not_lt.mp ha) (h a (by simp))
      rw [List.filter_cons_of_neg (by simpa using ha), ih', List.map_cons, List.sum_cons, h0]
      ring

/-- **C91 (score).** With the rows of `X` in the order of the data, choices that are not negative, in every number and
fraction: `score` is the mean log likelihood. -/
theorem C91_score (cases : List ι) (alts : List κ) (rows : List (ι × κ)) (P : ι → κ → ℝ) (y : List ℝ)
    (ho : Ordered cases alts rows) (hl : y.length = rows.length) (hy : ∀ v ∈ y, 0 ≤ v) (hs : 0 < y.sum)
    (hn : cases ≠ []) : score cases alts rows P y = .ok (meanLL rows P y) := by
  classical
  have hpr : (predictProba cases alts rows P).map Prod.snd = rows.map (fun k => P k.1 k.2) := by
    unfold predictProba
    rw [← ho, List.map_map]; rfl
  have hnn : (cases.length : ℝ) ≠ 0 := by
    rw [Nat.cast_ne_zero]
    intro h; exact hn (List.length_eq_zero_iff.mp h)
  unfold score
  simp only
  rw [hpr, if_neg (by simp [hl])]
  congr 1
  rw [sum_filter_pos _ Real.log (by
    rintro ⟨a, b⟩ hq
    exact hy b (List.of_mem_zip hq).2)]
  rw [List.zip_map_left, List.map_map]
  have e : (List.map ((fun q : ℝ × ℝ => q.2 * Real.log q.1) ∘ Prod.map (fun k : ι × κ => P k.1 k.2) id) (rows.zip y)).sum =
      ((rows.zip y).map (fun q => q.2 * Real.log (P q.1.1 q.1.2))).sum := rfl
  rw [e]
  unfold meanLL
  field_simp

theorem sum_filter_wt (l : List (ℝ × ℝ × ℝ)) (g : ℝ → ℝ) (adj : ℝ) (h : ∀ q ∈ l, q.2.1 = 0 ∨ q.2.1 = 1) :
    open Classical in
    ((l.filter (fun q => decide (0 < q.2.1))).map (fun q => g q.1 * q.2.1 * (q.2.2 / adj))).sum =
      (l.map (fun q => q.2.2 * (q.2.1 * g q.1))).sum / adj ∧
    ((l.filter (fun q => decide (0 < q.2.1))).map (fun q => q.2.2 / adj)).sum = (l.map (fun q => q.2.2 * q.2.1)).sum / adj := by
  classical
  induction l with
  | nil => simp
  | cons a l ih =>
    obtain ⟨i1, i2⟩ := ih (fun q hq => h q (List.mem_cons_of_mem _ hq))
    rcases h a (by simp) with ha | ha
    · rw [List.filter_cons_of_neg (by simp [ha]), i1, i2]
      simp [ha]
    · rw [List.filter_cons_of_pos (by simp [ha])]
      simp only [List.map_cons, List.sum_cons, i1, i2, ha]
      constructor <;> ring

/-- **C91 (weighted score).** With the rows in the order of the data and choices 0 or 1, the weighted score is the weighted
mean log likelihood. -/
theorem C91_score_weighted (cases : List ι) (alts : List κ) (rows : List (ι × κ)) (P : ι → κ → ℝ) (y w : List ℝ)
    (ho : Ordered cases alts rows) (hl : y.length = rows.length) (hlw : w.length = rows.length)
    (hy : ∀ v ∈ y, v = 0 ∨ v = 1) (hs : y.sum ≠ 0) (hn : cases ≠ []) :
    scoreWt cases alts rows P y w = .ok (meanWtLL rows P y w) := by
  classical
  have hpr : (predictProba cases alts rows P).map Prod.snd = rows.map (fun k => P k.1 k.2) := by
    unfold predictProba
    rw [← ho, List.map_map]; rfl
  have hnn : (cases.length : ℝ) ≠ 0 := by
    rw [Nat.cast_ne_zero]
    intro h; exact hn (List.length_eq_zero_iff.mp h)
  have hadj : y.sum / cases.length ≠ 0 := div_ne_zero hs hnn
  unfold scoreWt
  simp only
  rw [hpr, if_neg (by simp [hl, hlw])]
  congr 1
  obtain ⟨e1, e2⟩ := sum_filter_wt ((rows.map (fun k => P k.1 k.2)).zip (y.zip w)) Real.log (y.sum / cases.length) (by
    rintro ⟨a, b, c⟩ hq
    exact hy b (List.of_mem_zip (List.of_mem_zip hq).2).1)
  rw [e1, e2]
  rw [List.zip_map_left, List.map_map, List.map_map]
  have q1 : (List.map ((fun q : ℝ × ℝ × ℝ => q.2.2 * (q.2.1 * Real.log q.1)) ∘ Prod.map (fun k : ι × κ => P k.1 k.2) id)
      (rows.zip (y.zip w))).sum = ((rows.zip (y.zip w)).map (fun q => q.2.2 * (q.2.1 * Real.log (P q.1.1 q.1.2)))).sum := rfl
  have q2 : (List.map ((fun q : ℝ × ℝ × ℝ => q.2.2 * q.2.1) ∘ Prod.map (fun k : ι × κ => P k.1 k.2) id)
      (rows.zip (y.zip w))).sum = ((y.zip w).map (fun q => q.2 * q.1)).sum := by
    have : (rows.zip (y.zip w)).map ((fun q : ℝ × ℝ × ℝ => q.2.2 * q.2.1) ∘ Prod.map (fun k : ι × κ => P k.1 k.2) id) =
        ((rows.zip (y.zip w)).map Prod.snd).map (fun q => q.2 * q.1) := by
      rw [List.map_map]; rfl
    rw [this, List.map_snd_zip (by simp [hl, hlw])]
  rw [q1, q2]
  unfold meanWtLL
  exact div_div_div_cancel_right₀ hadj _ _

/-- Probabilities of a case with two alternatives. -/
noncomputable def skP (_ a : Nat) : ℝ := if a = 1 then 1 / 4 else 3 / 4

example : Ordered [7, 9] [1, 2] [(7, 1), (7, 2), (9, 2)] ∧ (0 : ℝ) < [0, 1, (1 : ℝ)].sum ∧
    meanLL [(7, 1), (7, 2), (9, 2)] skP [0, 1, 1] = Real.log (3 / 4) := by
  refine ⟨?_, by norm_num, ?_⟩
  · unfold Ordered; decide +kernel
  · simp only [meanLL, List.zip_cons_cons, List.zip_nil_right, List.map_cons, List.map_nil, List.sum_cons, List.sum_nil, skP]
    norm_num

/-- **C91 violated (order of the rows).** The choices are taken in the order of the rows of `X`, the probabilities in the order of
the data: with the two rows of a case given as alternative 2, alternative 1, and 2 chosen (probability 3/4), the score is that
of choosing alternative 1. -/
theorem C91_fails_order : score [7] [1, 2] [(7, 2), (7, 1)] skP [1, 0] = .ok (Real.log (1 / 4)) ∧
    meanLL [(7, 2), (7, 1)] skP [1, 0] = Real.log (3 / 4) := by
  classical
  have hs : slots [7] [1, 2] [(7, 2), (7, 1)] = [(7, 1), (7, 2)] := by decide +kernel
  constructor
  · unfold score predictProba
    simp only
    rw [hs]
    simp [skP]
  · simp [meanLL, skP]

/-- **C91 violated (weights and shared choices).** With a choice shared equally by two alternatives, giving all rows the weight 1
changes the score: it is halved. -/
theorem C91_fails_weighted :
    score [7] [1, 2] [(7, 1), (7, 2)] skP [1 / 2, 1 / 2] = .ok ((Real.log (1 / 4) + Real.log (3 / 4)) / 2) ∧
    scoreWt [7] [1, 2] [(7, 1), (7, 2)] skP [1 / 2, 1 / 2] [1, 1] = .ok ((Real.log (1 / 4) + Real.log (3 / 4)) / 4) := by
  classical
  have hs : slots [7] [1, 2] [(7, 1), (7, 2)] = [(7, 1), (7, 2)] := by decide +kernel
  constructor
  · unfold score predictProba
    simp only
    rw [hs]
    norm_num [skP]
    ring
  · unfold scoreWt predictProba
    simp only
    rw [hs]
    norm_num [skP]
    ring

/-! ## Predictions -/

theorem nanargmax_spec (l : List (Option ℝ)) : ∀ (i : Nat) (best : Option (Nat × ℝ)),
    match nanargmax l i best with
    | none => best = none ∧ ∀ x ∈ l, x = none
    | some (j, v) => (best = some (j, v) ∨ (i ≤ j ∧ l[j - i]? = some (some v))) ∧
        (∀ b, best = some b → b.2 ≤ v) ∧ ∀ u, some u ∈ l → u ≤ v := by
  classical
  induction l with
  | nil =>
    intro i best
    cases best with
    | none => simp [nanargmax]
    | some b => simp [nanargmax]
  | cons x l ih =>
    intro i best
    cases x with
    | none =>
      have h := ih (i + 1) best
      simp only [nanargmax]
      split at h
      · next hm => exact ⟨h.1, by simpa using h.2⟩
      · next j v hm =>
        refine ⟨?_, h.2.1, by simpa using h.2.2⟩
        rcases h.1 with h1 | ⟨h1, h2⟩
        · exact Or.inl h1
        · refine Or.inr ⟨by omega, ?_⟩
          rw [show j - i = (j - (i + 1)) + 1 by omega, List.getElem?_cons_succ]; exact h2
    | some w =>
      have lift : ∀ b' : Nat × ℝ, (match nanargmax l (i + 1) (some b') with
          | none => False
          | some (j, v) => (b' = (j, v) ∨ (i + 1 ≤ j ∧ l[j - (i + 1)]? = some (some v))) ∧ b'.2 ≤ v ∧ ∀ u, some u ∈ l → u ≤ v) := by
        intro b'
        have h := ih (i + 1) (some b')
        split at h
        · next hm => simp at h
        · next j v hm =>
          refine ⟨?_, h.2.1 b' rfl, h.2.2⟩
          rcases h.1 with h1 | h1
          · exact Or.inl (by simpa using h1)
          · exact Or.inr h1
      have fin : ∀ (b' : Nat × ℝ), (b' = (i, w) ∨ best = some b') → w ≤ b'.2 → (∀ b, best = some b → b.2 ≤ b'.2) →
          (match nanargmax l (i + 1) (some b') with
          | none => best = none ∧ ∀ x ∈ some w :: l, x = none
          | some (j, v) => (best = some (j, v) ∨ (i ≤ j ∧ (some w :: l)[j - i]? = some (some v))) ∧
            (∀ b, best = some b → b.2 ≤ v) ∧ ∀ u, some u ∈ some w :: l → u ≤ v) := by
        intro b' hb hw hbb
        have h := lift b'
        split at h
        · exact absurd h id
        · next j v hm =>
          refine ⟨?_, fun b hbs => le_trans (hbb b hbs) h.2.1, ?_⟩
          · rcases h.1 with h1 | ⟨h1, h2⟩
            · rcases hb with hb | hb
              · rw [h1] at hb
                cases hb
                exact Or.inr ⟨le_refl _, by simp⟩
              · rw [h1] at hb
                exact Or.inl hb
            · refine Or.inr ⟨by omega, ?_⟩
              rw [show j - i = (j - (i + 1)) + 1 by omega, List.getElem?_cons_succ]; exact h2
          · intro u hu
            rcases List.mem_cons.mp hu with hu | hu
            · cases hu; exact le_trans hw h.2.1
            · exact h.2.2 u hu
      cases best with
      | none =>
        rw [nanargmax]
        exact fin (i, w) (Or.inl rfl) (le_refl _) (by simp)
      | some b =>
        rw [nanargmax]
        by_cases hbw : b.2 < w
        · rw [if_pos hbw]
          exact fin (i, w) (Or.inl rfl) (le_refl _) (by rintro b' h; cases h; exact hbw.le)
        · rw [if_neg hbw]
          exact fin b (Or.inr rfl) (not_lt.mp hbw) (by rintro b' h; cases h; exact le_refl _)

/-- What `predict` says about one case. -/
theorem predictRow_spec (alts : List κ) (rows : List (ι × κ)) (P : ι → κ → ℝ) (c : ι) (ha : alts.Nodup)
    (hav : ∃ a ∈ alts, (c, a) ∈ rows) :
    ∃ r a, predictRow alts rows P c = .ok r ∧ r = (alts.filter (fun a => (c, a) ∈ rows)).map
        (fun b => ((c, b), if b = a then 1 else 0)) ∧ a ∈ alts ∧ (c, a) ∈ rows ∧
      ∀ b ∈ alts, (c, b) ∈ rows → P c b ≤ P c a := by
  classical
  have h := nanargmax_spec (rowVals alts rows P c) 0 none
  unfold predictRow
  cases hm : nanargmax (rowVals alts rows P c) 0 none with
  | none =>
    rw [hm] at h
    obtain ⟨a, h1, h2⟩ := hav
    have := h.2 (some (P c a)) (List.mem_map.mpr ⟨a, h1, by rw [if_pos h2]⟩)
    cases this
  | some jv =>
    obtain ⟨j, v⟩ := jv
    rw [hm] at h
    obtain ⟨h1, _, h3⟩ := h
    rcases h1 with h1 | ⟨_, h1⟩
    · cases h1
    simp only [Nat.sub_zero, rowVals, List.getElem?_map] at h1
    obtain ⟨a, hja, hv⟩ := Option.map_eq_some_iff.mp h1
    have hca : (c, a) ∈ rows := by
      by_contra hc
      rw [if_neg hc] at hv; cases hv
    rw [if_pos hca] at hv
    cases hv
    refine ⟨_, a, rfl, ?_, List.mem_of_getElem? hja, hca, ?_⟩
    · -- positions and alternatives identify each other
      have key : ∀ (l : List κ) (k : Nat), (∀ q ∈ l.zipIdx k, (q.2 = j ↔ q.1 = a)) →
          ((l.zipIdx k).filter (fun q => (c, q.1) ∈ rows)).map (fun q => ((c, q.1), if q.2 = j then 1 else 0)) =
            (l.filter (fun b => (c, b) ∈ rows)).map (fun b => ((c, b), if b = a then 1 else 0)) := by
        intro l
        induction l with
        | nil => intro k _; rfl
        | cons b l ih =>
          intro k hk
          have ih' := ih (k + 1) (fun q hq => hk q (by rw [List.zipIdx_cons]; exact List.mem_cons_of_mem _ hq))
          have hb := hk (b, k) (by simp)
          simp only at hb
          rw [List.zipIdx_cons]
          by_cases hcb : (c, b) ∈ rows
          · rw [List.filter_cons_of_pos (by simpa using hcb), List.filter_cons_of_pos (by simpa using hcb), List.map_cons,
              List.map_cons, ih']
            congr 2
            by_cases hkj : k = j
            · rw [if_pos hkj, if_pos (hb.mp hkj)]
            · rw [if_neg hkj, if_neg (fun h => hkj (hb.mpr h))]
          · rw [List.filter_cons_of_neg (by simpa using hcb), List.filter_cons_of_neg (by simpa using hcb), ih']
      refine key alts 0 ?_
      rintro ⟨b, k⟩ hq
      rw [List.mem_zipIdx_iff_getElem?] at hq
      simp only at hq ⊢
      constructor
      · intro hkj
        rw [hkj, hja] at hq
        exact (Option.some.inj hq).symm
      · intro hba
        rw [hba] at hq
        have l1 := (List.getElem?_eq_some_iff.mp hq)
        have l2 := (List.getElem?_eq_some_iff.mp hja)
        obtain ⟨p1, e1⟩ := l1
        obtain ⟨p2, e2⟩ := l2
        exact (List.Nodup.getElem_inj_iff ha).mp (e1.trans e2.symm)
    · intro b hb hcb
      exact h3 _ (List.mem_map.mpr ⟨b, hb, by rw [if_pos hcb]⟩)

theorem mapM_predict_ok {α β : Type} (f : α → Except String β) (g : α → β) : ∀ l : List α, (∀ a ∈ l, f a = .ok (g a)) →
    l.mapM f = .ok (l.map g) := by
  intro l
  induction l with
  | nil => intro _; rfl
  | cons a l ih =>
    intro h
    rw [List.mapM_cons, h a (by simp), ih (fun b hb => h b (List.mem_cons_of_mem _ hb))]
    rfl

/-- **C91 (predictions).** Every case of `X` has at least one row.  Then `predict` succeeds; the result has the keys of
`predict_proba`, in the same order; and for every case there is one alternative, available and of maximal probability, that is
marked 1 while all others of the case are marked 0. -/
theorem C91_predict (cases : List ι) (alts : List κ) (rows : List (ι × κ)) (P : ι → κ → ℝ) (ha : alts.Nodup)
    (hav : ∀ c ∈ cases, ∃ a ∈ alts, (c, a) ∈ rows) :
    ∃ r, predict cases alts rows P = .ok r ∧ r.map Prod.fst = slots cases alts rows ∧
      ∀ c ∈ cases, ∃ a ∈ alts, (c, a) ∈ rows ∧ (∀ b ∈ alts, (c, b) ∈ rows → P c b ≤ P c a) ∧
        ∀ b m, ((c, b), m) ∈ r → m = if b = a then 1 else 0 := by
  classical
  have hex : ∀ c, ∃ q : List ((ι × κ) × Nat) × Option κ, c ∈ cases → predictRow alts rows P c = .ok q.1 ∧
      ∃ a, q.2 = some a ∧ q.1 = (alts.filter (fun a => (c, a) ∈ rows)).map (fun b => ((c, b), if b = a then 1 else 0)) ∧
        a ∈ alts ∧ (c, a) ∈ rows ∧ ∀ b ∈ alts, (c, b) ∈ rows → P c b ≤ P c a := by
    intro c
    by_cases hc : c ∈ cases
    · obtain ⟨r, a, h1, h2, h3, h4, h5⟩ := predictRow_spec alts rows P c ha (hav c hc)
      exact ⟨(r, some a), fun _ => ⟨h1, a, rfl, h2, h3, h4, h5⟩⟩
    · exact ⟨([], none), fun h => absurd h hc⟩
  choose g hg using hex
  refine ⟨(cases.map (fun c => (g c).1)).flatten, ?_, ?_, ?_⟩
  · unfold predict
    rw [mapM_predict_ok (predictRow alts rows P) (fun c => (g c).1) cases (fun c hc => (hg c hc).1)]
    rfl
  · unfold slots
    clear hav
    induction cases with
    | nil => rfl
    | cons c l ih =>
      have ih' := ih (fun c' hc' => hg c' (List.mem_cons_of_mem _ hc'))
      rw [List.map_cons, List.flatten_cons, List.map_append, ih', List.flatMap_cons, List.filter_append]
      congr 1
      obtain ⟨_, a, _, h2, _⟩ := hg c (by simp)
      rw [h2, List.map_map, List.filter_map]
      rfl
  · intro c hc
    obtain ⟨_, a, _, h2, h3, h4, h5⟩ := hg c hc
    refine ⟨a, h3, h4, h5, ?_⟩
    intro b m hbm
    obtain ⟨l, hl, hq⟩ := List.mem_flatten.mp hbm
    obtain ⟨c', hc', rfl⟩ := List.mem_map.mp hl
    obtain ⟨_, a', _, h2', _⟩ := hg c' hc'
    rw [h2'] at hq
    obtain ⟨b', _, e⟩ := List.mem_map.mp hq
    have hcc : c' = c := congrArg (fun q => q.1.1) e
    subst hcc
    -- the same choice of alternative
    have hsame : (alts.filter (fun a => (c', a) ∈ rows)).map (fun b => ((c', b), if b = a' then 1 else 0)) =
        (alts.filter (fun a => (c', a) ∈ rows)).map (fun b => ((c', b), if b = a then 1 else 0)) := by
      rw [← h2', ← h2]
    have hq2 : ((c', b), m) ∈ (alts.filter (fun a => (c', a) ∈ rows)).map (fun b => ((c', b), if b = a then 1 else 0)) := by
      rw [← hsame]; exact hq
    obtain ⟨b2, _, eb⟩ := List.mem_map.mp hq2
    have e3 : b2 = b := congrArg (fun q => q.1.2) eb
    have e4 : (if b2 = a then 1 else 0) = m := congrArg Prod.snd eb
    rw [← e4, e3]

example : ∀ c ∈ [7, 9], ∃ a ∈ [1, 2], (c, a) ∈ [(7, 1), (7, 2), (9, 2)] := by decide

end Larch.Props
