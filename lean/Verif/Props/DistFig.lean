import Verif.Spec.DistFig
import Verif.Props.Shares

/-! # C173: the numbers of distribution figures -/

namespace Larch.Props

open Larch.Shares Larch.DistFig

variable {K : Type} [Field K] [LinearOrder K]

theorem df_zip_range {α : Type} (f : Nat → α) (m : Nat) (g : Nat → List α) (n : Nat) (h : ∀ k < n, g k = (List.range m).map (fun j => f (k * m + j))) :
    (List.range (n * m)).map f = (List.range n).flatMap g := by
  induction n with
  | zero => simp
  | succ n ih =>
    rw [List.range_succ, List.flatMap_append, ← ih (fun k hk => h k (by omega)), Nat.succ_mul, List.range_add, List.map_append]
    simp [h n (by omega), Function.comp_def]

theorem df_outline (gap : K) (edges y : List K) (h : edges.length = y.length + 1) :
    outline gap edges y = (List.range y.length).flatMap (fun k =>
      if gap = 0 then [(edges.getD k 0, y.getD k 0), (edges.getD (k + 1) 0, y.getD k 0)]
      else [(edges.getD k 0, 0), (edges.getD k 0, y.getD k 0), (edges.getD (k + 1) 0 - gap, y.getD k 0), (edges.getD (k + 1) 0 - gap, 0)]) := by
  induction y generalizing edges with
  | nil =>
    match edges, h with
    | [a], _ => simp [outline]
  | cons v y ih =>
    match edges, h with
    | a :: b :: r, h =>
      have := ih (b :: r) (by simpa using h)
      simp only [outline, this, List.length_cons, List.range_succ_eq_map, List.flatMap_cons, List.flatMap_map]
      simp

/-- `pseudo_bar_data` gives the line around the bars. -/
theorem C173_bars (gap : K) (edges y : List K) (h : edges.length = y.length + 1) : barPoints edges y gap = outline gap edges y := by
  rw [df_outline gap edges y h]
  unfold barPoints
  by_cases hg : gap = 0
  · simp only [hg, if_true, h, Nat.add_sub_cancel]
    apply df_zip_range _ 2
    intro k _
    have e1 : (k * 2 + 1) / 2 = k := by omega
    have e2 : (k * 2 + 1) % 2 = 1 := by omega
    simp [List.range_succ, e1, e2]
  · simp only [hg, if_false, h, Nat.add_sub_cancel]
    apply df_zip_range _ 4
    intro k _
    have e1 : (k * 4 + 1) / 4 = k := by omega
    have e2 : (k * 4 + 2) / 4 = k := by omega
    have e3 : (k * 4 + 3) / 4 = k := by omega
    have f1 : (k * 4 + 1) % 4 = 1 := by omega
    have f2 : (k * 4 + 2) % 4 = 2 := by omega
    have f3 : (k * 4 + 3) % 4 = 3 := by omega
    simp [List.range_succ, e1, e2, e3, f1, f2, f3]

theorem df_widths (edges : List K) (k : Nat) (a b : K) (ha : edges[k]? = some a) (hb : edges[k + 1]? = some b) : (widths edges)[k]? = some (b - a) := by
  simp [widths, List.getElem?_zipWith, ha, hb, List.getElem?_tail]

theorem df_widths_length (edges : List K) : (widths edges).length = edges.length - 1 := by
  simp [widths]

section Ordered

variable [IsStrictOrderedRing K]

/-- Densities: the part of the weight in the bin, by its width. -/
theorem C173_density (edges : List K) (h : StrictlyUp edges) (cases : List (Case K)) (q : Case K → K) (k : Nat) (a b : K)
    (ha : edges[k]? = some a) (hb : edges[k + 1]? = some b) (ht : (hist (entries cases q) edges).sum ≠ 0) :
    (density edges (entries cases q))[k]? = some (some (massIn edges k cases q / (b - a) / (hist (entries cases q) edges).sum)) := by
  have hi : Increasing edges := h.imp (fun hh => le_of_lt hh)
  have hk : k + 1 < edges.length := (List.getElem?_eq_some_iff.mp hb).1
  have hab : a < b := by
    obtain ⟨h1, rfl⟩ := List.getElem?_eq_some_iff.mp ha
    obtain ⟨h2, rfl⟩ := List.getElem?_eq_some_iff.mp hb
    exact List.pairwise_iff_getElem.mp h _ _ h1 h2 (Nat.lt_succ_self k)
  have hw : b - a ≠ 0 := sub_ne_zero.mpr hab.ne'
  unfold density
  rw [List.getElem?_zipWith, sh_hist _ _ hi k hk, df_widths edges k a b ha hb, sh_entries]
  simp [divide, hw, ht]

theorem df_area (T : K) (hT : T ≠ 0) : ∀ (h w : List K), h.length = w.length → (∀ v ∈ w, v ≠ 0) →
    ((List.zipWith (fun a b => (divide a b).bind (fun q => divide q T)) h w).zip w).foldr (fun p s => p.1.getD 0 * p.2 + s) 0 = h.sum / T := by
  intro h
  induction h with
  | nil => intro w _ _; simp
  | cons a h ih =>
    intro w hl hw
    cases w with
    | nil => simp at hl
    | cons v w =>
      have hv : v ≠ 0 := hw v (by simp)
      simp only [List.zipWith_cons_cons, List.zip_cons_cons, List.foldr_cons, List.sum_cons]
      rw [ih w (by simpa using hl) (fun u hu => hw u (by simp [hu]))]
      simp only [divide, hv, hT, if_false, Option.bind_some, Option.getD_some]
      field_simp

/-- The areas of the bars sum to one. -/
theorem C173_area (edges : List K) (h : StrictlyUp edges) (d : List (K × K)) (ht : (hist d edges).sum ≠ 0) :
    ((density edges d).zip (widths edges)).foldr (fun p s => p.1.getD 0 * p.2 + s) 0 = 1 := by
  unfold density
  rw [df_area _ ht]
  · exact div_self ht
  · rw [sh_length, df_widths_length]
  · intro v hv
    obtain ⟨k, hk, rfl⟩ := List.getElem_of_mem hv
    simp only [widths, List.getElem_zipWith, List.getElem_tail]
    have h1 : k + 1 < edges.length := by rw [df_widths_length] at hk; omega
    have := List.pairwise_iff_getElem.mp h k (k + 1) (by omega) h1 (Nat.lt_succ_self k)
    exact sub_ne_zero.mpr this.ne'

theorem df_total (l : List K) : total (l.map some) = some l.sum := by
  induction l with
  | nil => rfl
  | cons a l ih => simp [total, ih]

theorem df_both (f : K → K → K) (a b : List K) : List.zipWith (both f) (a.map some) (b.map some) = (List.zipWith f a b).map some := by
  induction a generalizing b with
  | nil => simp
  | cons x a ih => cases b with
    | nil => simp
    | cons y b => simp [both, ih]

theorem df_minmax : ∀ (y1 y2 : List K), y1.length = y2.length → (∀ v ∈ y1, 0 ≤ v) → (∀ v ∈ y2, 0 ≤ v) →
    0 ≤ (List.zipWith min y1 y2).sum ∧ (List.zipWith min y1 y2).sum ≤ (List.zipWith max y1 y2).sum ∧
      ((List.zipWith min y1 y2).sum = (List.zipWith max y1 y2).sum ↔ y1 = y2) := by
  intro y1
  induction y1 with
  | nil => intro y2 h _ _; cases y2 <;> simp_all
  | cons a y1 ih =>
    intro y2 h h1 h2
    cases y2 with
    | nil => simp at h
    | cons b y2 =>
      have := ih y2 (by simpa using h) (fun v hv => h1 v (by simp [hv])) (fun v hv => h2 v (by simp [hv]))
      have ha : 0 ≤ a := h1 a (by simp)
      have hb : 0 ≤ b := h2 b (by simp)
      simp only [List.zipWith_cons_cons, List.sum_cons, List.cons.injEq]
      have hm : 0 ≤ min a b := le_min ha hb
      have hmm : min a b ≤ max a b := min_le_max
      refine ⟨add_nonneg hm this.1, add_le_add hmm this.2.1, ?_⟩
      constructor
      · intro he
        have e1 : min a b = max a b := by linarith [this.2.1]
        have e2 : (List.zipWith min y1 y2).sum = (List.zipWith max y1 y2).sum := by linarith
        exact ⟨le_antisymm ((le_max_left a b).trans (e1 ▸ min_le_right a b)) ((le_max_right a b).trans (e1 ▸ min_le_left a b)), this.2.2.mp e2⟩
      · rintro ⟨rfl, rfl⟩
        rw [this.2.2.mpr rfl]; simp

/-- The coincidence ratio is between zero and one, and one only for equal distributions. -/
theorem C173_coincidence (y1 y2 : List K) (h : y1.length = y2.length) (h1 : ∀ v ∈ y1, 0 ≤ v) (h2 : ∀ v ∈ y2, 0 ≤ v) (hne : ∃ v ∈ y1, v ≠ 0) :
    ∃ r, coincidence (y1.map some) (y2.map some) = some r ∧ 0 ≤ r ∧ r ≤ 1 ∧ (r = 1 ↔ y1 = y2) := by
  obtain ⟨m0, m1, m2⟩ := df_minmax y1 y2 h h1 h2
  have hpos : 0 < (List.zipWith max y1 y2).sum := by
    obtain ⟨v, hv, hv0⟩ := hne
    obtain ⟨i, hi, rfl⟩ := List.getElem_of_mem hv
    have hin : max y1[i] (y2[i]'(by omega)) ∈ List.zipWith max y1 y2 := by
      have hi' : i < (List.zipWith max y1 y2).length := by simp; omega
      have := List.getElem_mem hi'
      simpa using this
    have hp : 0 < max y1[i] (y2[i]'(by omega)) := lt_max_of_lt_left (lt_of_le_of_ne (h1 _ hv) (Ne.symm hv0))
    apply lt_of_lt_of_le hp
    apply List.single_le_sum _ _ hin
    intro y hy
    obtain ⟨j, hj, rfl⟩ := List.getElem_of_mem hy
    simp only [List.getElem_zipWith]
    exact le_max_of_le_left (h1 _ (List.getElem_mem _))
  refine ⟨(List.zipWith min y1 y2).sum / (List.zipWith max y1 y2).sum, ?_, div_nonneg m0 hpos.le, (div_le_one hpos).mpr m1, ?_⟩
  · unfold coincidence
    rw [df_both, df_both, df_total, df_total]
    simp [divide, hpos.ne']
  · rw [div_eq_one_iff_eq hpos.ne', m2]

theorem df_cumsum (acc : K) (l : List K) (h : l ≠ []) : (cumsum acc l).getLast? = some (acc + l.sum) := by
  induction l generalizing acc with
  | nil => exact absurd rfl h
  | cons a l ih =>
    cases l with
    | nil => simp [cumsum]
    | cons b l =>
      have := ih (acc + a) (by simp)
      simp only [cumsum] at this ⊢
      rw [List.getLast?_cons_cons, this, List.sum_cons (a := a)]
      congr 1; ring

theorem df_sub : ∀ (y1 y2 : List K), y1.length = y2.length → (List.zipWith (fun a b => a - b) y1 y2).sum = y1.sum - y2.sum := by
  intro y1
  induction y1 with
  | nil => intro y2 h; cases y2 <;> simp_all
  | cons a y1 ih =>
    intro y2 h
    cases y2 with
    | nil => simp at h
    | cons b y2 =>
      simp only [List.zipWith_cons_cons, List.sum_cons, ih y2 (by simpa using h)]
      ring

/-- The net cumulative trend ends at the difference of the sums of heights, zero for bins of equal width. -/
theorem C173_trend_partial (y1 y2 : List K) (h : y1.length = y2.length) (hne : y1 ≠ []) :
    (netCum y1 y2).getLast? = some (y1.sum - y2.sum) ∧
    ∀ w : K, w ≠ 0 → (y1.map (fun v => v * w)).sum = 1 → (y2.map (fun v => v * w)).sum = 1 → (netCum y1 y2).getLast? = some 0 := by
  have hz : List.zipWith (fun a b => a - b) y1 y2 ≠ [] := by
    intro he
    have := congrArg List.length he
    simp at this
    rcases this with h' | h'
    · exact hne h'
    · subst h'; simp at h; exact hne h
  have h1 : (netCum y1 y2).getLast? = some (y1.sum - y2.sum) := by
    unfold netCum
    rw [df_cumsum _ _ hz, df_sub y1 y2 h, zero_add]
  refine ⟨h1, ?_⟩
  intro w hw e1 e2
  have hm : ∀ l : List K, (l.map (fun v => v * w)).sum = l.sum * w := by
    intro l
    induction l with
    | nil => simp
    | cons a l ih => simp only [List.map_cons, List.sum_cons, ih]; ring
  rw [hm] at e1 e2
  have : y1.sum = y2.sum := mul_right_cancel₀ hw (e1.trans e2.symm)
  rw [h1, this, sub_self]

/-- VIOLATION: for numbers with fewer than six distinct values the axis gets a label for each of them, at 0, 1, 2 and so on, but the bars are those of
the equal-mass bins: 20 unless asked otherwise. -/
theorem C173_fails_discrete_bins (x : List K) (hx : x ≠ []) (hd : x.dedup.length < 6) (pct : Nat) (hp : 6 ≤ pct) :
    ∃ edges m, defaultEdges none pct (.numbers x) = .ok edges ∧ labelCount none (Var.numbers x) = some m ∧ m < edges.length - 1 := by
  obtain ⟨edges, he, hl, _⟩ := C172_equal_mass x hx pct (by omega)
  refine ⟨edges, x.dedup.length, he, ?_, by omega⟩
  simp [labelCount, distinct, hd]

end Ordered

/-- A categorical variable of fewer than six categories, all of which occur, has the bar of each category at its code. -/
theorem C173_categories_partial (n : Nat) (hn : 0 < n) (h6 : n < 6) (codes : List Nat) (h : ∀ c < n, c ∈ codes) (pct : Nat) :
    ∃ edges, defaultEdges none pct (.categorical n codes : Var ℚ) = .ok edges ∧ edges.length = n + 1 ∧
      ∀ c < n, ∀ k, inBin edges k (c : ℚ) = true ↔ k = c := by
  have hf : (List.range n).filter (fun c => c ∈ codes) = List.range n := by
    rw [List.filter_eq_self]
    intro c hc
    simpa using h c (by simpa using hc)
  have hd : distinct (.categorical n codes : Var ℚ) = n := by
    show ((List.range n).filter (fun c => c ∈ codes)).length = n
    rw [hf, List.length_range]
  have hl : labelCount none (.categorical n codes : Var ℚ) = some n := by
    simp only [labelCount, hd, if_pos h6]
  refine ⟨(List.range (n + 1)).map (fun (e : Nat) => (e : ℚ)), ?_, by simp, ?_⟩
  · simp only [defaultEdges, hl]
  · intro c hc k
    have := (C172_categories_partial n codes hn).2.2 c hc k
    simpa [categoryEdges] using this

/-- VIOLATION: a categorical variable with six or more categories (that occur) raises, also with `discrete=False`. -/
theorem C173_fails_many_categories (n : Nat) (h6 : 6 ≤ n) (codes : List Nat) (h : ∀ c < n, c ∈ codes) (pct : Nat) :
    defaultEdges none pct (.categorical n codes : Var K) = .error "TypeError" ∧
    defaultEdges (some false) pct (.categorical n codes : Var K) = .error "TypeError" := by
  have hf : (List.range n).filter (fun c => c ∈ codes) = List.range n := by
    rw [List.filter_eq_self]
    intro c hc
    simpa using h c (by simpa using hc)
  have hd : distinct (.categorical n codes : Var K) = n := by
    show ((List.range n).filter (fun c => c ∈ codes)).length = n
    rw [hf, List.length_range]
  have hl : labelCount none (.categorical n codes : Var K) = none := by
    simp only [labelCount, hd, if_neg (by omega : ¬ n < 6)]
  refine ⟨by simp only [defaultEdges, hl], rfl⟩

/-- VIOLATION: where more was observed than modelled so far, the legend says that the model is ahead, and the reverse. -/
theorem C173_fails_legend (p o : String) (c : K) : (c < 0 → ahead p o c = some p) ∧ (0 < c → ahead p o c = some o) := by
  refine ⟨fun h => if_pos h, fun h => ?_⟩
  unfold ahead
  rw [if_neg (not_lt.mpr h.le), if_pos h]

/-- VIOLATION: a value that is frequent makes a bin of no width among the equal-mass bins, and the ratio is NaN (two cases of three at 0, one at 1). -/
theorem C173_fails_ties :
    ∃ edges, equalMass [0, 0, (1 : ℚ)] 2 = .ok edges ∧ edges = [0, 0, 1] ∧
      density edges [(0, 1), (0, 1), (1, 1)] = [none, some 1] ∧
      coincidence (density edges [(0, 1), (0, 1), (1, 1)]) (density edges [(0, 1), (0, 1), (1, 1)]) = none := by
  refine ⟨_, rfl, ?_, ?_, ?_⟩ <;> decide +kernel

/-- VIOLATION: the trend of heights does not come back to zero for bins of different widths, as the equal-mass bins are. -/
theorem C173_fails_trend :
    density [0, 1, (3 : ℚ)] [(0, 1), (2, 1)] = [some (1 / 2), some (1 / 4)] ∧ density [0, 1, (3 : ℚ)] [(0, 1), (2, 3)] = [some (1 / 4), some (3 / 8)] ∧
      (netCum [1 / 2, 1 / 4] [1 / 4, (3 / 8 : ℚ)]).getLast? = some (1 / 8) := by
  refine ⟨?_, ?_, ?_⟩ <;> decide +kernel

/-! ## Examples -/

example : barPoints [0, 1, (3 : ℚ)] [5, 7] 0 = [(0, 5), (1, 5), (1, 7), (3, 7)] := by decide +kernel

example : StrictlyUp [0, 1, (3 : ℚ)] ∧ (hist (entries surveyed (fun _ => 1)) [0, 1, (3 : ℚ)]).sum = 4 := by
  constructor
  · unfold StrictlyUp; norm_num
  · decide +kernel

example : coincidence [some (1 / 2), some (1 / 2)] [some (1 / 4), some (3 / 4 : ℚ)] = some (3 / 5) := by decide +kernel

example : (List.dedup [0, 1, 1, (0 : ℚ)]).length = 2 := by decide +kernel

end Larch.Props
